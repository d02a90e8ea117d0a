import Verif.Spec.GpuLaunch
import Verif.Lemmas.DiscoCuda
/-!
Lemmas on the order and the split of rows, and invariants of the two caches.
-/
namespace Verif.GpuLaunch
open Verif Finset

/-! ### Sorting -/

theorem setRow_foldl (off : ℕ → ℕ) (l : List ℕ) : ∀ (m : RowArrays) (i : ℕ), (i ∈ l ∨ (m.rids i = i ∧ m.rlens i = rlen off i)) →
    (l.foldl (setRow off) m).rids i = i ∧ (l.foldl (setRow off) m).rlens i = rlen off i := by
  induction l with
  | nil => intro m i h; exact h.resolve_left (by simp)
  | cons a l ih =>
    intro m i h
    refine ih _ i ?_
    by_cases ha : i = a
    · right
      subst ha
      exact ⟨Function.update_self .., Function.update_self ..⟩
    · rcases h with h | h
      · exact .inl ((List.mem_cons.mp h).resolve_left ha)
      · right
        exact ⟨(Function.update_of_ne ha ..).trans h.1, (Function.update_of_ne ha ..).trans h.2⟩

theorem setRows_eq (off : ℕ → ℕ) (n : ℕ) {order : List ℕ} (ho : ∀ t < AttnGpu.divUp n 64 * 64, t ∈ order) (m : RowArrays) {i : ℕ} (hi : i < n) :
    (setRows off n order m).rids i = i ∧ (setRows off n order m).rlens i = rlen off i := by
  have h0 : 0 < AttnGpu.divUp n 64 * 64 := by unfold AttnGpu.divUp; omega
  refine setRow_foldl off _ m i (.inl ?_)
  rw [List.mem_flatMap]
  exact ⟨i % (AttnGpu.divUp n 64 * 64), ho _ (Nat.mod_lt _ h0), (Disco.mem_strided h0 (Nat.mod_lt _ h0)).2 ⟨hi, rfl⟩⟩

theorem nodup_no_swap {α : Type} [DecidableEq α] {l : List α} (h : l.Nodup) {a b : α} (h1 : [a, b].Sublist l) (h2 : [b, a].Sublist l) : False := by
  have hp : l.Pairwise fun x y => l.idxOf x < l.idxOf y := by
    rw [List.pairwise_iff_getElem]
    intro i j hi hj hij
    rw [h.idxOf_getElem i hi, h.idxOf_getElem j hj]
    exact hij
  rw [List.pairwise_iff_forall_sublist] at hp
  have := hp h1
  have := hp h2
  omega

theorem pair_sublist_range {i j n : ℕ} (hij : i < j) (hj : j < n) : [i, j].Sublist (List.range n) := by
  have h1 : [i].Sublist (List.range j) := List.singleton_sublist.mpr (List.mem_range.mpr hij)
  have h2 : ([i] ++ [j]).Sublist (List.range (j + 1)) := by
    rw [List.range_succ]
    exact h1.append (List.Sublist.refl _)
  exact h2.trans (List.range_sublist.mpr hj)

theorem sortRows_byLength (off : ℕ → ℕ) (n : ℕ) {order : List ℕ} (ho : ∀ t < AttnGpu.divUp n 64 * 64, t ∈ order) (m : RowArrays) :
    ByLength (rlen off) n (sortRows off n order m) := by
  have e : ((List.range n).map fun i => ((setRows off n order m).rlens i, (setRows off n order m).rids i)) = (List.range n).map fun i => (rlen off i, i) := by
    refine List.map_congr_left fun i hi => ?_
    obtain ⟨h1, h2⟩ := setRows_eq off n ho m (List.mem_range.mp hi)
    rw [h1, h2]
  have trans : ∀ a b c : ℕ × ℕ, decide (b.1 ≤ a.1) = true → decide (c.1 ≤ b.1) = true → decide (c.1 ≤ a.1) = true := by
    intro a b c h1 h2
    rw [decide_eq_true_eq] at *
    omega
  have total : ∀ a b : ℕ × ℕ, (decide (b.1 ≤ a.1) || decide (a.1 ≤ b.1)) = true := by
    intro a b
    rw [Bool.or_eq_true, decide_eq_true_eq, decide_eq_true_eq]
    omega
  unfold sortRows sortPairsDescending
  rw [e]
  obtain ⟨l, hl⟩ : ∃ l, l = (List.range n).map fun i => (rlen off i, i) := ⟨_, rfl⟩
  rw [← hl]
  have hperm := List.mergeSort_perm l fun a b => decide (b.1 ≤ a.1)
  have hnd : l.Nodup := by
    rw [hl]
    exact List.Nodup.map (fun a b h => (Prod.mk.injEq .. ▸ h : _ ∧ _).2) List.nodup_range
  have hnd' := hperm.nodup_iff.mpr hnd
  have hmem : ∀ a, a ∈ l → ∃ i < n, a = (rlen off i, i) := by
    intro a ha
    rw [hl, List.mem_map] at ha
    obtain ⟨i, hi, rfl⟩ := ha
    exact ⟨i, List.mem_range.mp hi, rfl⟩
  refine ⟨?_, ?_⟩
  · refine (hperm.map _).trans ?_
    rw [hl, List.map_map]
    have : (Prod.snd ∘ fun i => (rlen off i, i)) = (id : ℕ → ℕ) := rfl
    rw [this, List.map_id]
  · rw [List.pairwise_map, List.pairwise_iff_forall_sublist]
    intro a b hab
    have hs := List.pairwise_iff_forall_sublist.mp (List.pairwise_mergeSort trans total l) hab
    rw [decide_eq_true_eq] at hs
    obtain ⟨i, hi, rfl⟩ := hmem a (hperm.mem_iff.mp (hab.subset (by simp)))
    obtain ⟨j, hj, rfl⟩ := hmem b (hperm.mem_iff.mp (hab.subset (by simp)))
    dsimp only at hs ⊢
    rcases Nat.lt_or_ge (rlen off j) (rlen off i) with h | h
    · exact .inl h
    · right
      refine ⟨by omega, ?_⟩
      by_contra hij
      have hne : i ≠ j := by
        rintro rfl
        exact absurd (hab.nodup hnd') (by simp)
      have hsub : [(rlen off j, j), (rlen off i, i)].Sublist l := by
        rw [hl]
        exact (pair_sublist_range (show j < i by omega) hi).map fun i => (rlen off i, i)
      exact nodup_no_swap hnd' hab (List.pair_sublist_mergeSort trans total (by rw [decide_eq_true_eq]; exact h) hsub)

/-! ### Splitting -/

theorem long_prefix {f : ℕ → ℕ} {L n : ℕ} (h : ∀ i j, i ≤ j → j < n → f j ≤ f i) : ∃ k ≤ n, ∀ i < n, (L ≤ f i ↔ i < k) := by
  induction n with
  | zero => exact ⟨0, le_rfl, fun i hi => absurd hi (by omega)⟩
  | succ n ih =>
    obtain ⟨k, hk, hk'⟩ := ih fun i j hij hj => h i j hij (by omega)
    by_cases hn : L ≤ f n
    · exact ⟨n + 1, le_rfl, fun i hi => ⟨fun _ => hi, fun _ => hn.trans (h i n (by omega) (by omega))⟩⟩
    · refine ⟨k, by omega, fun i hi => ?_⟩
      by_cases hi' : i = n
      · subst hi'
        exact ⟨fun h => absurd h hn, fun h => absurd h (by omega)⟩
      · exact hk' i (by omega)

theorem cpuScan_eq {f : ℕ → ℕ} {L n k : ℕ} (hk : k ≤ n) (hp : ∀ i < n, (L ≤ f i ↔ i < k)) :
    ∀ fuel i, i + fuel = n → i ≤ k → cpuScan f L fuel i i = k := by
  intro fuel
  induction fuel with
  | zero => intro i h1 h2; show i = k; omega
  | succ fuel ih =>
    intro i h1 h2
    show (if L ≤ f i then cpuScan f L fuel (i + 1) (i + 1) else i) = k
    by_cases h : L ≤ f i
    · rw [if_pos h]
      have := (hp i (by omega)).mp h
      exact ih (i + 1) (by omega) (by omega)
    · rw [if_neg h]
      have : ¬ i < k := fun hik => h ((hp i (by omega)).mpr hik)
      omega

theorem chunkCount_eq {f : ℕ → ℕ} {L n k i : ℕ} (hL : 0 < L) (hk : k ≤ n) (hp : ∀ i < n, (L ≤ f i ↔ i < k)) : chunkCount f L n i = min 1024 (k - i) := by
  unfold chunkCount
  have e : ((List.range 1024).filter fun tid => decide (L ≤ if i + tid < n then f (i + tid) else 0)) = (List.range 1024).filter fun tid => decide (tid < k - i) := by
    refine List.filter_congr fun t _ => ?_
    rw [decide_eq_decide]
    by_cases h : i + t < n
    · rw [if_pos h, hp _ h]; omega
    · rw [if_neg h]; omega
  rw [e, ← List.countP_eq_length_filter]
  have key : ∀ m, (List.range m).countP (fun tid => decide (tid < k - i)) = min m (k - i) := by
    intro m
    induction m with
    | zero => simp
    | succ m ih =>
      rw [List.range_succ, List.countP_append, ih, List.countP_singleton]
      split_ifs with h <;> rw [decide_eq_true_eq] at h <;> omega
  exact key 1024

theorem gpuScan_eq {f : ℕ → ℕ} {L n k : ℕ} (hL : 0 < L) (hk : k ≤ n) (hp : ∀ i < n, (L ≤ f i ↔ i < k)) :
    ∀ fuel i, n ≤ i + fuel → gpuScan f L n fuel i (min i k) = k := by
  intro fuel
  induction fuel with
  | zero => intro i h; show min i k = k; omega
  | succ fuel ih =>
    intro i h
    show (if i < n then (if chunkCount f L n i = 0 then min i k else gpuScan f L n fuel (i + 1024) (min i k + chunkCount f L n i)) else min i k) = k
    rw [chunkCount_eq hL hk hp]
    by_cases hi : i < n
    · rw [if_pos hi]
      by_cases hc : min 1024 (k - i) = 0
      · rw [if_pos hc]; omega
      · rw [if_neg hc, show min i k + min 1024 (k - i) = min (i + 1024) k from by omega]
        exact ih (i + 1024) (by omega)
    · rw [if_neg hi]; omega

theorem Decreasing.image {len idx : ℕ → ℕ} {n : ℕ} (h : Decreasing len n idx) : (range n).image idx = range n := by
  refine eq_of_subset_of_card_le ?_ ?_
  · intro r hr
    rw [mem_image] at hr
    obtain ⟨i, hi, rfl⟩ := hr
    exact mem_range.mpr (h.lt i (mem_range.mp hi))
  · rw [card_image_of_injOn fun i hi j hj hij => h.inj i (mem_range.mp hi) j (mem_range.mp hj) hij]

theorem Decreasing.first {len idx : ℕ → ℕ} {n : ℕ} (h : Decreasing len n idx) (hn : 0 < n) : len (idx 0) = longest len n := by
  unfold longest
  rw [← h.image]
  refine le_antisymm (le_sup (f := len) (mem_image_of_mem _ (mem_range.mpr hn))) (Finset.sup_le fun r hr => ?_)
  rw [mem_image] at hr
  obtain ⟨i, hi, rfl⟩ := hr
  exact h.anti 0 i (Nat.zero_le _) (mem_range.mp hi)

theorem isLong_iff {tenth len : ℕ → ℕ} {n r : ℕ} : isLong tenth len n r ↔ minLong tenth (longest len n) ≤ len r := by
  unfold isLong minLong
  omega

/-- The split, from the number `k` of long rows. -/
theorem splitOf_eq {tenth len idx : ℕ → ℕ} {n k : ℕ} (h : Decreasing len n idx) (hn : 0 < n) (hk : k ≤ n)
    (hp : ∀ i < n, (minLong tenth (longest len n) ≤ len (idx i) ↔ i < k)) :
    (⟨k, if k ≠ 0 then len (idx 0) else 0, if k < n then len (idx k) else 0⟩ : Split) = splitOf tenth len n := by
  have e1 : (range n).filter (isLong tenth len n) = (range k).image idx := by
    ext r
    rw [mem_filter, mem_image, isLong_iff]
    constructor
    · rintro ⟨hr, hl⟩
      rw [← h.image, mem_image] at hr
      obtain ⟨i, hi, rfl⟩ := hr
      exact ⟨i, mem_range.mpr ((hp i (mem_range.mp hi)).mp hl), rfl⟩
    · rintro ⟨i, hi, rfl⟩
      rw [mem_range] at hi
      exact ⟨mem_range.mpr (h.lt i (by omega)), (hp i (by omega)).mpr hi⟩
  have e2 : ((range n).filter (isLong tenth len n)).card = k := by
    rw [e1, card_image_of_injOn, card_range]
    intro i hi j hj hij
    have hi' : i < k := by simpa using hi
    have hj' : j < k := by simpa using hj
    exact h.inj i (by omega) j (by omega) hij
  have e3 : ((range n).filter fun r => ¬ isLong tenth len n r).sup len = if k < n then len (idx k) else 0 := by
    by_cases hkn : k < n
    · rw [if_pos hkn]
      refine le_antisymm (Finset.sup_le fun r hr => ?_) (le_sup (f := len) (mem_filter.mpr ⟨mem_range.mpr (h.lt k hkn), fun hl => ?_⟩))
      · rw [mem_filter, isLong_iff, ← h.image, mem_image] at hr
        obtain ⟨⟨i, hi, rfl⟩, hl⟩ := hr
        rw [mem_range] at hi
        exact h.anti k i (by rw [hp i hi] at hl; omega) hi
      · rw [isLong_iff, hp k hkn] at hl; omega
    · rw [if_neg hkn]
      have : ((range n).filter fun r => ¬ isLong tenth len n r) = ∅ := by
        rw [filter_eq_empty_iff]
        intro r hr
        rw [← h.image, mem_image] at hr
        obtain ⟨i, hi, rfl⟩ := hr
        rw [mem_range] at hi
        rw [not_not, isLong_iff, hp i hi]
        omega
      rw [this, sup_empty]
      rfl
  unfold splitOf
  dsimp only
  rw [e2, e3, h.first hn]

theorem split_both (tenth : ℕ → ℕ) {off idx : ℕ → ℕ} {n : ℕ} (h : Decreasing (rlen off) n idx) :
    splitCpu tenth idx off n = splitOf tenth (rlen off) n ∧ splitGpu tenth idx off n = splitOf tenth (rlen off) n ∧
    ∀ i < n, (i < (splitOf tenth (rlen off) n).nLong ↔ isLong tenth (rlen off) n (idx i)) := by
  rcases Nat.eq_zero_or_pos n with h0 | hn
  · subst h0
    exact ⟨rfl, rfl, fun i hi => absurd hi (by omega)⟩
  · obtain ⟨k, hk, hp⟩ := long_prefix (f := fun i => rlen off (idx i)) (L := minLong tenth (longest (rlen off) n)) (n := n) h.anti
    have hL : 0 < minLong tenth (longest (rlen off) n) := by unfold minLong; omega
    have hs := splitOf_eq h hn hk hp
    refine ⟨?_, ?_, fun i hi => ?_⟩
    · unfold splitCpu
      rw [if_neg (by omega)]
      dsimp only
      rw [Int.toNat_natCast, h.first hn, cpuScan_eq hk hp n 0 (by omega) (by omega), ← h.first hn]
      exact hs
    · have hg := gpuScan_eq hL hk hp n 0 (by omega)
      rw [Nat.zero_min] at hg
      unfold splitGpu
      rw [if_neg (by omega)]
      dsimp only
      rw [Int.toNat_natCast, h.first hn, hg, ← h.first hn]
      exact hs
    · rw [← hs, isLong_iff, hp i hi]

/-! ### The cache of `ensure_dyn_shmem` -/

/-- Holding the mutex. -/
def Pc.crit : Pc → Prop
  | .compare | .set | .note | .unlock => True
  | _ => False

/-- What holds at every moment. -/
structure Inv (s : Proc) : Prop where
  failed : s.failed = false
  use_le : ∀ t, ∀ r ∈ s.todo t, r.use ≤ r.ask
  holder : ∀ t, s.mutex = some t ↔ (s.pc t).crit
  busy : ∀ t, (s.pc t).crit → s.todo t ≠ []
  same : (∀ t, s.pc t ≠ .note) → s.attr = s.granted
  setting : ∀ t r rest, s.todo t = r :: rest → s.pc t = .set → s.granted (r.dev, r.kern) < r.ask
  noting : ∀ t r rest, s.todo t = r :: rest → s.pc t = .note → s.attr = Function.update s.granted (r.dev, r.kern) r.ask
  leaving : ∀ t r rest, s.todo t = r :: rest → s.pc t = .unlock → r.ask ≤ s.granted (r.dev, r.kern)
  ready : ∀ t r rest, s.todo t = r :: rest → s.pc t = .launch → r.ask ≤ max (48 * 1024) (s.attr (r.dev, r.kern))

theorem Inv.unique {s : Proc} (h : Inv s) {t u : ℕ} (ht : (s.pc t).crit) (hu : (s.pc u).crit) : u = t := by
  have h1 := (h.holder t).mpr ht
  have h2 := (h.holder u).mpr hu
  rw [h1] at h2
  exact (Option.some.inj h2).symm

theorem inv_start {todo : ℕ → List Req} (h : ∀ t, ∀ r ∈ todo t, r.use ≤ r.ask) : Inv (Proc.start todo) :=
  ⟨rfl, h, fun t => ⟨fun h => (by cases h), fun h => h.elim⟩, fun t h => h.elim, fun _ => rfl, fun _ _ _ _ h => (by cases h), fun _ _ _ _ h => (by cases h),
    fun _ _ _ _ h => (by cases h), fun _ _ _ _ h => (by cases h)⟩

/-- Moving a thread between two places without the mutex, with the memory as it is. -/
theorem inv_goto {s : Proc} (h : Inv s) {t : ℕ} {p : Pc} (h0 : ¬ (s.pc t).crit) (hp : ¬ p.crit)
    (hl : p = .launch → ∀ r rest, s.todo t = r :: rest → r.ask ≤ max (48 * 1024) (s.attr (r.dev, r.kern))) : Inv (s.goto t p) := by
  have hne : s.pc t ≠ .note := fun e => h0 (by rw [e]; trivial)
  have hpc : ∀ u, (s.goto t p).pc u = if u = t then p else s.pc u := fun u => by
    show Function.update s.pc t p u = _
    rw [Function.update_apply]
  refine ⟨h.failed, h.use_le, fun u => ?_, fun u hu => ?_, fun hn => h.same fun u => ?_, fun u r rest e hu => ?_, fun u r rest e hu => ?_,
    fun u r rest e hu => ?_, fun u r rest e hu => ?_⟩
  · rw [hpc]
    split_ifs with hut
    · subst hut
      exact ⟨fun e => absurd ((h.holder u).mp e) h0, fun e => absurd e hp⟩
    · exact h.holder u
  · rw [hpc] at hu
    split_ifs at hu with hut
    · exact absurd hu hp
    · exact h.busy u hu
  · by_cases hut : u = t
    · rw [hut]; exact hne
    · have := hn u
      rw [hpc, if_neg hut] at this
      exact this
  · rw [hpc] at hu
    split_ifs at hu with hut
    · rw [hu] at hp; exact absurd trivial hp
    · exact h.setting u r rest e hu
  · rw [hpc] at hu
    split_ifs at hu with hut
    · rw [hu] at hp; exact absurd trivial hp
    · exact h.noting u r rest e hu
  · rw [hpc] at hu
    split_ifs at hu with hut
    · rw [hu] at hp; exact absurd trivial hp
    · exact h.leaving u r rest e hu
  · rw [hpc] at hu
    split_ifs at hu with hut
    · rw [hut] at e; exact hl hu r rest e
    · exact h.ready u r rest e hu

/-- A step inside the critical section: thread `t` holds the mutex before and goes to `p`, and only the memory changes. -/
theorem inv_crit {s s' : Proc} (h : Inv s) {t : ℕ} {p : Pc} {r : Req} {rest : List Req} (htodo : s.todo t = r :: rest) (hc : (s.pc t).crit)
    (epc : s'.pc = Function.update s.pc t p) (etodo : s'.todo = s.todo) (efail : s'.failed = s.failed)
    (emu : p.crit → s'.mutex = s.mutex) (emu' : ¬ p.crit → s'.mutex = none)
    (hsame : p ≠ .note → s'.attr = s'.granted)
    (hset : p = .set → s'.granted (r.dev, r.kern) < r.ask)
    (hnote : p = .note → s'.attr = Function.update s'.granted (r.dev, r.kern) r.ask)
    (hunl : p = .unlock → r.ask ≤ s'.granted (r.dev, r.kern))
    (hlau : p = .launch → r.ask ≤ max (48 * 1024) (s'.attr (r.dev, r.kern)))
    (hmono : ∀ x, s.attr x ≤ s'.attr x) : Inv s' := by
  have hpc : ∀ u, s'.pc u = if u = t then p else s.pc u := fun u => by rw [epc, Function.update_apply]
  have hoth : ∀ u, u ≠ t → ¬ (s.pc u).crit := fun u hu hcu => hu (h.unique hc hcu)
  refine ⟨by rw [efail]; exact h.failed, by rw [etodo]; exact h.use_le, fun u => ?_, fun u hu => ?_, fun hn => ?_, fun u r' rest' e hu => ?_, fun u r' rest' e hu => ?_,
    fun u r' rest' e hu => ?_, fun u r' rest' e hu => ?_⟩
  · rw [hpc]
    have hm := (h.holder t).mpr hc
    by_cases hp : p.crit
    · rw [emu hp, hm]
      by_cases hut : u = t
      · rw [if_pos hut]; exact ⟨fun _ => hp, fun _ => by rw [hut]⟩
      · rw [if_neg hut]; exact ⟨fun e => absurd (Option.some.inj e).symm hut, fun e => absurd e (hoth u hut)⟩
    · rw [emu' hp]
      by_cases hut : u = t
      · rw [if_pos hut]; exact ⟨fun e => (by cases e), fun e => absurd e hp⟩
      · rw [if_neg hut]; exact ⟨fun e => (by cases e), fun e => absurd e (hoth u hut)⟩
  · rw [etodo]
    by_cases hut : u = t
    · rw [hut, htodo]; exact List.cons_ne_nil _ _
    · rw [hpc, if_neg hut] at hu
      exact absurd hu (hoth u hut)
  · have := hn t
    rw [hpc, if_pos rfl] at this
    exact hsame this
  all_goals
    rw [etodo] at e
    by_cases hut : u = t
    · rw [hut, htodo] at e
      obtain ⟨rfl, -⟩ := List.cons.inj e
      rw [hpc, if_pos hut] at hu
      first
        | exact hset hu
        | exact hnote hu
        | exact hunl hu
        | exact hlau hu
    · rw [hpc, if_neg hut] at hu
      first
        | exact absurd (show (s.pc u).crit by rw [hu]; trivial) (hoth u hut)
        | exact (h.ready u r' rest' e hu).trans (max_le_max le_rfl (hmono _))

/-- Every step keeps the invariant, unless it ends the process. -/
theorem inv_step {limit : ℕ → ℕ} {s : Proc} (h : Inv s) (t : ℕ) : Inv (step limit t s) := by
  unfold step
  match htodo : s.todo t with
  | [] => exact h
  | r :: rest =>
    dsimp only
    match hpc : s.pc t with
    | .call =>
      dsimp only
      split_ifs with ha
      · exact inv_goto h (by rw [hpc]; exact not_false) not_false fun _ r' rest' e => by
          rw [htodo] at e
          obtain ⟨rfl, -⟩ := List.cons.inj e
          exact ha.trans (le_max_left _ _)
      · exact inv_goto h (by rw [hpc]; exact not_false) not_false fun e => by cases e
    | .lock =>
      dsimp only
      split_ifs with hm
      · have hfree : ∀ u, ¬ (s.pc u).crit := fun u hu => by
          have := (h.holder u).mpr hu
          rw [hm] at this
          cases this
        have hsame : s.attr = s.granted := h.same fun u hu => hfree u (by rw [hu]; trivial)
        have hp : ∀ u, Function.update s.pc t Pc.compare u = if u = t then .compare else s.pc u := fun u => Function.update_apply ..
        refine ⟨h.failed, h.use_le, fun u => ?_, fun u hu => ?_, fun _ => hsame, fun u r' rest' e hu => ?_, fun u r' rest' e hu => ?_,
          fun u r' rest' e hu => ?_, fun u r' rest' e hu => ?_⟩
        · show some t = some u ↔ (Function.update s.pc t Pc.compare u).crit
          rw [hp]
          split_ifs with hut
          · exact ⟨fun _ => trivial, fun _ => by rw [hut]⟩
          · exact ⟨fun e => absurd (Option.some.inj e).symm hut, fun e => absurd e (hfree u)⟩
        · by_cases hut : u = t
          · show s.todo u ≠ []
            rw [hut, htodo]; exact List.cons_ne_nil _ _
          · change (Function.update s.pc t Pc.compare u).crit at hu
            rw [hp, if_neg hut] at hu
            exact absurd hu (hfree u)
        all_goals
          change Function.update s.pc t Pc.compare u = _ at hu
          rw [hp] at hu
          split_ifs at hu with hut
          first
            | exact absurd (show (s.pc u).crit by rw [hu]; trivial) (hfree u)
            | exact h.ready u r' rest' e hu
      · exact h
    | .compare =>
      have hc : (s.pc t).crit := by rw [hpc]; trivial
      have hsame : s.attr = s.granted := h.same fun u hu => by
        have := h.unique hc (show (s.pc u).crit by rw [hu]; trivial)
        rw [this, hpc] at hu
        cases hu
      dsimp only
      split_ifs with ha
      · exact inv_crit (p := .unlock) h htodo hc rfl rfl rfl (fun _ => rfl) (fun e => absurd trivial e) (fun _ => hsame) (fun e => by cases e) (fun e => by cases e)
          (fun _ => ha) (fun e => by cases e) (fun _ => le_rfl)
      · exact inv_crit (p := .set) h htodo hc rfl rfl rfl (fun _ => rfl) (fun e => absurd trivial e) (fun _ => hsame) (fun _ => by show s.granted _ < _; omega) (fun e => by cases e)
          (fun e => by cases e) (fun e => by cases e) (fun _ => le_rfl)
    | .set =>
      have hc : (s.pc t).crit := by rw [hpc]; trivial
      have hsame : s.attr = s.granted := h.same fun u hu => by
        have := h.unique hc (show (s.pc u).crit by rw [hu]; trivial)
        rw [this, hpc] at hu
        cases hu
      dsimp only
      split_ifs with ha
      · refine inv_crit (p := .note) h htodo hc rfl rfl rfl (fun _ => rfl) (fun e => absurd trivial e) (fun e => absurd rfl e) (fun e => by cases e)
          (fun _ => by show Function.update s.attr _ _ = Function.update s.granted _ _; rw [hsame]) (fun e => by cases e) (fun e => by cases e) (fun x => ?_)
        show s.attr x ≤ Function.update s.attr (r.dev, r.kern) r.ask x
        rw [Function.update_apply]
        split_ifs with hx
        · rw [hx, hsame]; exact le_of_lt (h.setting t r rest htodo hpc)
        · exact le_rfl
      · exact ⟨h.failed, h.use_le, h.holder, h.busy, h.same, h.setting, h.noting, h.leaving, h.ready⟩
    | .note =>
      have hc : (s.pc t).crit := by rw [hpc]; trivial
      exact inv_crit (p := .unlock) h htodo hc rfl rfl rfl (fun _ => rfl) (fun e => absurd trivial e) (fun _ => h.noting t r rest htodo hpc) (fun e => by cases e) (fun e => by cases e)
        (fun _ => by show _ ≤ Function.update s.granted _ _ _; rw [Function.update_self]) (fun e => by cases e) (fun _ => le_rfl)
    | .unlock =>
      have hc : (s.pc t).crit := by rw [hpc]; trivial
      have hsame : s.attr = s.granted := h.same fun u hu => by
        have := h.unique hc (show (s.pc u).crit by rw [hu]; trivial)
        rw [this, hpc] at hu
        cases hu
      exact inv_crit (p := .launch) h htodo hc rfl rfl rfl (fun e => e.elim) (fun _ => rfl) (fun _ => hsame) (fun e => by cases e) (fun e => by cases e)
        (fun e => by cases e) (fun _ => by
          show r.ask ≤ max _ (s.attr _)
          rw [hsame]; exact (h.leaving t r rest htodo hpc).trans (le_max_right _ _)) (fun _ => le_rfl)
    | .launch =>
      have ha : r.use ≤ max (48 * 1024) (s.attr (r.dev, r.kern)) := (h.use_le t r (by rw [htodo]; simp)).trans (h.ready t r rest htodo hpc)
      dsimp only
      rw [if_pos ha]
      have h0 : ¬ (s.pc t).crit := by rw [hpc]; exact not_false
      have hg := inv_goto (p := .call) h h0 not_false fun e => by cases e
      have hp : ∀ u, u = t → (s.goto t .call).pc u = .call := fun u hu => by
        show Function.update s.pc t _ u = _
        rw [hu, Function.update_self]
      have ht : ∀ u, u ≠ t → Function.update s.todo t rest u = s.todo u := fun u hu => Function.update_of_ne hu ..
      refine ⟨hg.failed, fun u r' hr' => ?_, hg.holder, fun u hu => ?_, hg.same, fun u r' rest' e hu => ?_, fun u r' rest' e hu => ?_, fun u r' rest' e hu => ?_,
        fun u r' rest' e hu => ?_⟩
      · change r' ∈ Function.update s.todo t rest u at hr'
        by_cases hut : u = t
        · rw [hut, Function.update_self] at hr'
          exact h.use_le t r' (by rw [htodo]; exact List.mem_cons_of_mem _ hr')
        · rw [ht u hut] at hr'
          exact h.use_le u r' hr'
      · by_cases hut : u = t
        · change ((s.goto t .call).pc u).crit at hu
          rw [hp u hut] at hu
          exact hu.elim
        · show Function.update s.todo t rest u ≠ []
          rw [ht u hut]
          exact hg.busy u hu
      all_goals
        by_cases hut : u = t
        · change (s.goto t .call).pc u = _ at hu
          rw [hp u hut] at hu
          cases hu
        · change Function.update s.todo t rest u = _ at e
          rw [ht u hut] at e
          first
            | exact hg.setting u r' rest' e hu
            | exact hg.noting u r' rest' e hu
            | exact hg.leaving u r' rest' e hu
            | exact hg.ready u r' rest' e hu

theorem inv_exec {limit : ℕ → ℕ} (l : List ℕ) : ∀ s, Inv s → Inv (exec limit l s) := by
  induction l with
  | nil => exact fun s h => h
  | cons t l ih =>
    intro s h
    show Inv (if s.exited = true then s else exec limit l (step limit t s))
    split_ifs
    · exact h
    · exact ih _ (inv_step h t)

/-- The requests of the threads only become fewer. -/
theorem step_todo {limit : ℕ → ℕ} {s : Proc} {t u : ℕ} {r : Req} (h : r ∈ (step limit t s).todo u) : r ∈ s.todo u := by
  unfold step at h
  match htodo : s.todo t with
  | [] => rw [htodo] at h; exact h
  | q :: rest =>
    rw [htodo] at h
    dsimp only at h
    match hpc : s.pc t with
    | .call => rw [hpc] at h; dsimp only at h; split_ifs at h <;> exact h
    | .lock => rw [hpc] at h; dsimp only at h; split_ifs at h <;> exact h
    | .compare => rw [hpc] at h; dsimp only at h; split_ifs at h <;> exact h
    | .set => rw [hpc] at h; dsimp only at h; split_ifs at h <;> exact h
    | .note => rw [hpc] at h; exact h
    | .unlock => rw [hpc] at h; exact h
    | .launch =>
      rw [hpc] at h
      dsimp only at h
      split_ifs at h
      · change r ∈ Function.update s.todo t rest u at h
        by_cases hut : u = t
        · rw [hut, Function.update_self] at h
          rw [hut, htodo]
          exact List.mem_cons_of_mem _ h
        · rwa [Function.update_of_ne hut] at h
      · exact h

theorem step_exited {limit : ℕ → ℕ} {s : Proc} {t : ℕ} (h0 : s.exited = false) (h : (step limit t s).exited = true) : ∃ u, ∃ r ∈ s.todo u, limit r.dev < r.ask := by
  unfold step at h
  match htodo : s.todo t with
  | [] => rw [htodo] at h; dsimp only at h; rw [h0] at h; cases h
  | q :: rest =>
    rw [htodo] at h
    dsimp only at h
    have hn : ∀ p, (s.goto t p).exited = s.exited := fun _ => rfl
    match hpc : s.pc t with
    | .call => rw [hpc] at h; dsimp only at h; split_ifs at h <;> (rw [hn, h0] at h; cases h)
    | .lock =>
      rw [hpc] at h; dsimp only at h
      split_ifs at h
      · change s.exited = true at h; rw [h0] at h; cases h
      · rw [h0] at h; cases h
    | .compare => rw [hpc] at h; dsimp only at h; split_ifs at h <;> (rw [hn, h0] at h; cases h)
    | .set =>
      rw [hpc] at h; dsimp only at h
      split_ifs at h with ha
      · change s.exited = true at h; rw [h0] at h; cases h
      · exact ⟨t, q, by rw [htodo]; simp, by omega⟩
    | .note => rw [hpc] at h; change s.exited = true at h; rw [h0] at h; cases h
    | .unlock => rw [hpc] at h; change s.exited = true at h; rw [h0] at h; cases h
    | .launch =>
      rw [hpc] at h; dsimp only at h
      split_ifs at h
      · change s.exited = true at h; rw [h0] at h; cases h
      · change s.exited = true at h; rw [h0] at h; cases h

theorem exec_exited {limit : ℕ → ℕ} (l : List ℕ) : ∀ s : Proc, s.exited = false → (exec limit l s).exited = true → ∃ u, ∃ r ∈ s.todo u, limit r.dev < r.ask := by
  induction l with
  | nil => intro s h0 h; change s.exited = true at h; rw [h0] at h; cases h
  | cons t l ih =>
    intro s h0 h
    change (if s.exited = true then s else exec limit l (step limit t s)).exited = true at h
    rw [if_neg (by rw [h0]; decide)] at h
    cases hs : (step limit t s).exited with
    | true => exact step_exited h0 hs
    | false =>
      obtain ⟨u, r, hr, hl⟩ := ih _ hs h
      exact ⟨u, r, step_todo hr, hl⟩

/-- How far a thread is in its current launch. -/
def Pc.progress : Pc → ℕ
  | .call => 0
  | .lock => 1
  | .compare => 2
  | .set => 3
  | .note => 4
  | .unlock => 5
  | .launch => 6

/-- How many steps a thread still has to make. -/
def left (s : Proc) (t : ℕ) : ℕ := 7 * (s.todo t).length - (s.pc t).progress

/-- A step ends the process, or brings the thread forward, or the thread has nothing to do or waits. -/
theorem step_cases {limit : ℕ → ℕ} {s : Proc} (h : Inv s) (t : ℕ) :
    (step limit t s).exited = true ∨
    (left (step limit t s) t < left s t ∧ ∀ u, u ≠ t → left (step limit t s) u = left s u) ∨
    (step limit t s = s ∧ (s.todo t = [] ∨ s.pc t = .lock ∧ s.mutex ≠ none)) := by
  have adv : ∀ {p : Pc} {s' : Proc} {r : Req} {rest : List Req}, s.todo t = r :: rest → s'.pc = Function.update s.pc t p → s'.todo = s.todo →
      (s.pc t).progress < p.progress → p.progress ≤ 6 → (left s' t < left s t ∧ ∀ u, u ≠ t → left s' u = left s u) := by
    intro p s' r rest htodo epc etodo h1 h2
    refine ⟨?_, fun u hu => ?_⟩
    · unfold left
      rw [epc, etodo, Function.update_self, htodo, List.length_cons]
      omega
    · unfold left
      rw [epc, etodo, Function.update_of_ne hu]
  unfold step
  match htodo : s.todo t with
  | [] => exact .inr (.inr ⟨rfl, .inl rfl⟩)
  | r :: rest =>
    dsimp only
    match hpc : s.pc t with
    | .call =>
      dsimp only
      split_ifs
      · exact .inr (.inl (adv htodo rfl rfl (by rw [hpc]; decide) (by decide)))
      · exact .inr (.inl (adv htodo rfl rfl (by rw [hpc]; decide) (by decide)))
    | .lock =>
      dsimp only
      split_ifs with hm
      · exact .inr (.inl (adv (p := .compare) htodo rfl rfl (by rw [hpc]; decide) (by decide)))
      · exact .inr (.inr ⟨rfl, .inr ⟨rfl, hm⟩⟩)
    | .compare =>
      dsimp only
      split_ifs
      · exact .inr (.inl (adv htodo rfl rfl (by rw [hpc]; decide) (by decide)))
      · exact .inr (.inl (adv htodo rfl rfl (by rw [hpc]; decide) (by decide)))
    | .set =>
      dsimp only
      split_ifs
      · exact .inr (.inl (adv (p := .note) htodo rfl rfl (by rw [hpc]; decide) (by decide)))
      · exact .inl rfl
    | .note => exact .inr (.inl (adv (p := .unlock) htodo rfl rfl (by rw [hpc]; decide) (by decide)))
    | .unlock => exact .inr (.inl (adv (p := .launch) htodo rfl rfl (by rw [hpc]; decide) (by decide)))
    | .launch =>
      have ha : r.use ≤ max (48 * 1024) (s.attr (r.dev, r.kern)) := (h.use_le t r (by rw [htodo]; simp)).trans (h.ready t r rest htodo hpc)
      dsimp only
      rw [if_pos ha]
      refine .inr (.inl ⟨?_, fun u hu => ?_⟩)
      · show 7 * (Function.update s.todo t rest t).length - (Function.update s.pc t Pc.call t).progress < left s t
        unfold left
        rw [Function.update_self, Function.update_self, htodo, hpc, List.length_cons]
        show 7 * rest.length - 0 < 7 * (rest.length + 1) - 6
        omega
      · show 7 * (Function.update s.todo t rest u).length - (Function.update s.pc t Pc.call u).progress = left s u
        rw [Function.update_of_ne hu, Function.update_of_ne hu]
        rfl

theorem exec_of_exited {limit : ℕ → ℕ} {s : Proc} (h : s.exited = true) : ∀ l, exec limit l s = s
  | [] => rfl
  | t :: l => by
    show (if s.exited = true then s else exec limit l (step limit t s)) = s
    rw [if_pos h]

theorem exec_append {limit : ℕ → ℕ} (l m : List ℕ) : ∀ s, exec limit (l ++ m) s = exec limit m (exec limit l s) := by
  induction l with
  | nil => exact fun s => rfl
  | cons t l ih =>
    intro s
    show (if s.exited = true then s else exec limit (l ++ m) (step limit t s)) = exec limit m (if s.exited = true then s else exec limit l (step limit t s))
    split_ifs with h
    · exact (exec_of_exited h m).symm
    · exact ih _

/-- The steps that the threads below `T` still have to make. -/
def leftAll (T : ℕ) (s : Proc) : ℕ := ∑ t ∈ range T, left s t

theorem step_leftAll {limit : ℕ → ℕ} {s : Proc} (h : Inv s) {T t : ℕ} (ht : t < T) :
    (step limit t s).exited = true ∨ leftAll T (step limit t s) < leftAll T s ∨ (step limit t s = s ∧ (s.todo t = [] ∨ s.pc t = .lock ∧ s.mutex ≠ none)) := by
  rcases step_cases (limit := limit) h t with h1 | h1 | h1
  · exact .inl h1
  · refine .inr (.inl (sum_lt_sum (fun u _ => ?_) ⟨t, mem_range.mpr ht, h1.1⟩))
    by_cases hut : u = t
    · rw [hut]; exact h1.1.le
    · exact (h1.2 u hut).le
  · exact .inr (.inr h1)

/-- Along any schedule of the threads below `T`: the process ends, or there are fewer steps left, or nothing has changed and all threads of the schedule have nothing to
do or wait. -/
theorem exec_leftAll {limit : ℕ → ℕ} {T : ℕ} (l : List ℕ) (hl : ∀ t ∈ l, t < T) : ∀ s, Inv s →
    (exec limit l s).exited = true ∨ leftAll T (exec limit l s) < leftAll T s ∨ (exec limit l s = s ∧ ∀ t ∈ l, s.todo t = [] ∨ s.pc t = .lock ∧ s.mutex ≠ none) := by
  induction l with
  | nil => exact fun s _ => .inr (.inr ⟨rfl, fun t ht => by cases ht⟩)
  | cons t l ih =>
    intro s h
    show (if s.exited = true then s else exec limit l (step limit t s)).exited = true ∨ leftAll T (if s.exited = true then s else exec limit l (step limit t s)) < _ ∨
      ((if s.exited = true then s else exec limit l (step limit t s)) = s ∧ _)
    by_cases he : s.exited = true
    · rw [if_pos he]; exact .inl he
    rw [if_neg he]
    have hl' : ∀ u ∈ l, u < T := fun u hu => hl u (List.mem_cons_of_mem _ hu)
    rcases step_leftAll (limit := limit) h (hl t List.mem_cons_self) with h1 | h1 | ⟨h1, h2⟩
    · left; rw [exec_of_exited h1]; exact h1
    · rcases ih hl' _ (inv_step (limit := limit) h t) with h3 | h3 | ⟨h3, _⟩
      · exact .inl h3
      · exact .inr (.inl (h3.trans h1))
      · rw [h3]; exact .inr (.inl h1)
    · rw [h1]
      rcases ih hl' s h with h3 | h3 | ⟨h3, h4⟩
      · exact .inl h3
      · exact .inr (.inl h3)
      · refine .inr (.inr ⟨h3, fun u hu => ?_⟩)
        rcases List.mem_cons.mp hu with hu | hu
        · rw [hu]; exact h2
        · exact h4 u hu

theorem exec_empty {limit : ℕ → ℕ} {t : ℕ} (l : List ℕ) : ∀ s : Proc, s.todo t = [] → (exec limit l s).todo t = [] := by
  induction l with
  | nil => exact fun s h => h
  | cons u l ih =>
    intro s h
    show (if s.exited = true then s else exec limit l (step limit u s)).todo t = []
    split_ifs
    · exact h
    · refine ih _ (List.eq_nil_iff_forall_not_mem.mpr fun r hr => ?_)
      have := step_todo hr
      rw [h] at this
      cases this

/-- Every round brings the process forward until nothing is left to do. -/
theorem rounds_finish {limit : ℕ → ℕ} {T : ℕ} (rounds : List (List ℕ)) (hr : ∀ l ∈ rounds, (∀ t ∈ l, t < T) ∧ ∀ t < T, t ∈ l) :
    ∀ s, Inv s → (∀ t, T ≤ t → s.todo t = []) → leftAll T s ≤ rounds.length →
      (exec limit rounds.flatten s).exited = true ∨ ∀ t, (exec limit rounds.flatten s).todo t = [] := by
  induction rounds with
  | nil =>
    intro s h hT hle
    refine .inr fun t => ?_
    by_cases ht : t < T
    · have : left s t ≤ 0 := (single_le_sum (fun u _ => Nat.zero_le (left s u)) (mem_range.mpr ht)).trans hle
      unfold left at this
      have h6 : (s.pc t).progress ≤ 6 := by cases s.pc t <;> decide
      exact List.eq_nil_of_length_eq_zero (by show (s.todo t).length = 0; omega)
    · exact hT t (by omega)
  | cons l rounds ih =>
    intro s h hT hle
    rw [List.flatten_cons, exec_append]
    rw [List.length_cons] at hle
    obtain ⟨hl1, hl2⟩ := hr l List.mem_cons_self
    have hT' : ∀ t, T ≤ t → (exec limit l s).todo t = [] := fun t ht => exec_empty l s (hT t ht)
    rcases exec_leftAll (limit := limit) l hl1 s h with h1 | h1 | ⟨h1, h2⟩
    · left; rw [exec_of_exited h1]; exact h1
    · exact ih (fun m hm => hr m (List.mem_cons_of_mem _ hm)) _ (inv_exec l s h) hT' (by omega)
    · refine .inr fun t => exec_empty _ _ ?_
      rw [h1]
      by_cases ht : t < T
      · rcases h2 t (hl2 t ht) with h3 | ⟨h3, h4⟩
        · exact h3
        · exfalso
          obtain ⟨u, hu⟩ := Option.ne_none_iff_exists'.mp h4
          have hc := (h.holder u).mp hu
          have hb := h.busy u hc
          have huT : u < T := by
            by_contra hn
            exact hb (hT u (by omega))
          rcases h2 u (hl2 u huT) with h5 | ⟨h5, _⟩
          · exact hb h5
          · rw [h5] at hc; exact hc
      · exact hT t (by omega)

theorem leftAll_start (todo : ℕ → List Req) (T : ℕ) : leftAll T (Proc.start todo) = 7 * ∑ t ∈ range T, (todo t).length := by
  unfold leftAll left
  rw [mul_sum]
  rfl

/-! ### The cache of `getPtxver` -/

/-- What holds at every moment: the cache holds zero or the version, results are the version. -/
def PtxInv (version dev : ℕ → ℕ) (s : PtxState) : Prop :=
  (∀ d, ∀ v ∈ s.hist d, v = 0 ∨ v = version d) ∧ (∀ t v, s.pc t = .store v → v = version (dev t)) ∧ ∀ t v, s.pc t = .done v → v = version (dev t)

theorem ptx_step {version dev : ℕ → ℕ} {s : PtxState} (h : PtxInv version dev s) (t pick : ℕ) : PtxInv version dev (ptxStep version dev t pick s) := by
  obtain ⟨h1, h2, h3⟩ := h
  have upd : ∀ (p : PtxPc), (∀ v, p = .store v → v = version (dev t)) → (∀ v, p = .done v → v = version (dev t)) → ∀ hist : ℕ → List ℕ,
      (∀ d, ∀ v ∈ hist d, v = 0 ∨ v = version d) → PtxInv version dev ⟨hist, Function.update s.pc t p⟩ := by
    intro p hp1 hp2 hist hh
    refine ⟨hh, fun u v hu => ?_, fun u v hu => ?_⟩
    · change Function.update s.pc t p u = _ at hu
      by_cases hut : u = t
      · rw [hut, Function.update_self] at hu
        rw [hut]; exact hp1 v hu
      · rw [Function.update_of_ne hut] at hu; exact h2 u v hu
    · change Function.update s.pc t p u = _ at hu
      by_cases hut : u = t
      · rw [hut, Function.update_self] at hu
        rw [hut]; exact hp2 v hu
      · rw [Function.update_of_ne hut] at hu; exact h3 u v hu
  unfold ptxStep
  match hpc : s.pc t with
  | .load =>
    dsimp only
    split_ifs with hd hc
    · refine upd _ (fun v e => by cases e) (fun v e => ?_) _ h1
      obtain ⟨rfl⟩ := e
      generalize pick % (s.hist (dev t)).length = i at hc ⊢
      by_cases hi : i < (s.hist (dev t)).length
      · rw [List.getD_eq_getElem _ _ hi] at hc ⊢
        exact (h1 _ _ (List.getElem_mem hi)).resolve_left hc
      · rw [List.getD_eq_default _ _ (by omega)] at hc
        exact absurd rfl hc
    · exact upd _ (fun v e => by cases e) (fun v e => by cases e) _ h1
    · exact upd _ (fun v e => by cases e) (fun v e => by cases e) _ h1
  | .query =>
    dsimp only
    split_ifs with hd
    · exact upd _ (fun v e => by cases e; rfl) (fun v e => by cases e) _ h1
    · exact upd _ (fun v e => by cases e) (fun v e => by cases e; rfl) _ h1
  | .store w =>
    refine upd _ (fun v e => by cases e) (fun v e => by cases e; exact h2 t w hpc) _ fun d v hv => ?_
    by_cases hd : d = dev t
    · rw [hd, Function.update_self, List.mem_append, List.mem_singleton] at hv
      rw [hd]
      rcases hv with hv | hv
      · exact h1 _ v hv
      · right; rw [hv]; exact h2 t w hpc
    · rw [Function.update_of_ne hd] at hv; exact h1 d v hv
  | .done _ => exact ⟨h1, h2, h3⟩

theorem ptx_exec {version dev : ℕ → ℕ} (l : List (ℕ × ℕ)) : ∀ s, PtxInv version dev s → PtxInv version dev (ptxExec version dev l s) := by
  induction l with
  | nil => exact fun s h => h
  | cons a l ih => exact fun s h => ih _ (ptx_step h a.1 a.2)

end Verif.GpuLaunch
