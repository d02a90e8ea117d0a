import Verif.Lemmas.GpuLaunch
/-!
C90: what the GPU kernels of neighbourhood attention rely on before a launch: the order of the rows, their split into long and short ones, and the two caches that the
threads of a process share.
-/
namespace Verif.Props
open Verif Verif.GpuLaunch Finset

/-! ### The order of the rows -/

/-- The rows are sorted by decreasing length, rows of the same length in increasing order, whatever the order in which the threads of the kernel run and whatever the two
work arrays held before. -/
theorem C90_order (off : ℕ → ℕ) (n : ℕ) (order : List ℕ) (ho : ∀ t < AttnGpu.divUp n 64 * 64, t ∈ order) (m : RowArrays) :
    ByLength (rlen off) n (sortRows off n order m) := sortRows_byLength off n ho m

/-- There is only one such order, so that sorting is deterministic. -/
theorem C90_order_unique (len : ℕ → ℕ) (n : ℕ) (l l' : List ℕ) (h : ByLength len n l) (h' : ByLength len n l') : l = l' :=
  List.Perm.eq_of_pairwise (le := fun a b => len b < len a ∨ len a = len b ∧ a < b) (fun a b _ _ h1 h2 => by omega) h.sorted h'.sorted (h.perm.trans h'.perm.symm)

/-- Sorting runs the same for every order of the threads and every content of the work arrays. -/
theorem C90_deterministic (off : ℕ → ℕ) (n : ℕ) (order order' : List ℕ) (ho : ∀ t < AttnGpu.divUp n 64 * 64, t ∈ order) (ho' : ∀ t < AttnGpu.divUp n 64 * 64, t ∈ order')
    (m m' : RowArrays) : sortRows off n order m = sortRows off n order' m' :=
  C90_order_unique _ _ _ _ (C90_order off n order ho m) (C90_order off n order' ho' m')

/-- What is sorted lists the rows by decreasing length. -/
theorem C90_decreasing (len : ℕ → ℕ) (n : ℕ) (l : List ℕ) (h : ByLength len n l) : Decreasing len n fun i => l.getD i 0 := by
  have hlen : l.length = n := by rw [h.perm.length_eq, List.length_range]
  have hnd : l.Nodup := h.perm.nodup_iff.mpr List.nodup_range
  have hp := List.pairwise_iff_getElem.mp h.sorted
  refine ⟨fun i hi => ?_, fun i hi j hj hij => ?_, fun i j hij hj => ?_⟩
  · rw [List.getD_eq_getElem _ _ (by omega)]
    exact List.mem_range.mp (h.perm.mem_iff.mp (List.getElem_mem _))
  · rw [List.getD_eq_getElem _ _ (by omega), List.getD_eq_getElem _ _ (by omega)] at hij
    exact (hnd.getElem_inj_iff).mp hij
  · rw [List.getD_eq_getElem _ _ (by omega), List.getD_eq_getElem _ _ (by omega)]
    rcases Nat.lt_or_ge i j with h1 | h1
    · have := hp i j (by omega) (by omega) h1
      omega
    · have : i = j := by omega
      subst this
      exact le_rfl

/-- A pattern of three rows with 2, 5 and 2 entries: the threads run backwards. -/
example : ByLength (rlen fun i => [0, 2, 7, 9].getD i 0) 3 (sortRows (fun i => [0, 2, 7, 9].getD i 0) 3 (List.range 64).reverse ⟨fun _ => 7, fun _ => 7⟩) :=
  C90_order _ _ _ (fun t ht => by rw [List.mem_reverse, List.mem_range]; exact ht) _

example : ByLength (rlen fun i => [0, 2, 7, 9].getD i 0) 3 [1, 0, 2] := ⟨by decide, by decide⟩

/-! ### Long and short rows -/

/-- The CPU and the GPU split rows in the same way, and the split depends on the lengths only: not on the order in which rows of the same length are listed. -/
theorem C90_split (tenth off idx : ℕ → ℕ) (n : ℕ) (h : Decreasing (rlen off) n idx) :
    splitCpu tenth idx off n = splitOf tenth (rlen off) n ∧ splitGpu tenth idx off n = splitOf tenth (rlen off) n :=
  ⟨(split_both tenth h).1, (split_both tenth h).2.1⟩

/-- The long rows are those at the beginning of the list: a kernel that takes the first `nLong` rows and another that takes the rest take every row once, each row by
the kernel for its length. -/
theorem C90_prefix (tenth off idx : ℕ → ℕ) (n : ℕ) (h : Decreasing (rlen off) n idx) :
    (∀ i < n, (i < (splitOf tenth (rlen off) n).nLong ↔ isLong tenth (rlen off) n (idx i))) ∧ (splitOf tenth (rlen off) n).nLong ≤ n :=
  ⟨(split_both tenth h).2.2, (card_filter_le _ _).trans (by rw [card_range])⟩

/-- No row that is launched is longer than what is said of the rows of its kind: the kernels reserve shared memory and loops for that length. -/
theorem C90_bounds (tenth len : ℕ → ℕ) (n r : ℕ) (hr : r < n) :
    (isLong tenth len n r → len r ≤ (splitOf tenth len n).maxLen) ∧ (¬ isLong tenth len n r → len r ≤ (splitOf tenth len n).midLen) := by
  refine ⟨fun h => ?_, fun h => ?_⟩
  · have hc : ((range n).filter (isLong tenth len n)).card ≠ 0 := by
      rw [Ne, card_eq_zero, filter_eq_empty_iff]
      exact fun he => he (mem_range.mpr hr) h
    show len r ≤ if ((range n).filter (isLong tenth len n)).card ≠ 0 then longest len n else 0
    rw [if_pos hc]
    exact le_sup (f := len) (mem_range.mpr hr)
  · exact le_sup (f := len) (mem_filter.mpr ⟨mem_range.mpr hr, h⟩)

/-- Rows are split all the way from the offsets: sorted on the GPU and split on the GPU or on the CPU. -/
theorem C90_split_sorted (tenth off : ℕ → ℕ) (n : ℕ) (order : List ℕ) (ho : ∀ t < AttnGpu.divUp n 64 * 64, t ∈ order) (m : RowArrays) :
    let idx := fun i => (sortRows off n order m).getD i 0
    splitGpu tenth idx off n = splitOf tenth (rlen off) n ∧ splitCpu tenth idx off n = splitOf tenth (rlen off) n ∧
      ∀ i < n, (i < (splitGpu tenth idx off n).nLong ↔ isLong tenth (rlen off) n (idx i)) := by
  have h := split_both tenth (C90_decreasing _ _ _ (C90_order off n order ho m))
  exact ⟨h.2.1, h.1, by rw [h.2.1]; exact h.2.2⟩

/-- A number of rows that is not positive gives zeros on both. -/
theorem C90_no_rows (tenth off idx : ℕ → ℕ) (n : ℤ) (hn : n ≤ 0) : splitCpu tenth idx off n = ⟨0, 0, 0⟩ ∧ splitGpu tenth idx off n = ⟨0, 0, 0⟩ :=
  ⟨if_pos hn, if_pos hn⟩

/-- Five rows: two of 3000 and 1500 entries are long, three of 900, 20 and 20 are not. -/
example : Decreasing (rlen fun i => [0, 20, 3020, 3920, 5420, 5440].getD i 0) 5 (fun i => [1, 3, 2, 0, 4].getD i 0) := by
  refine ⟨by decide, by decide, fun i j hij hj => ?_⟩
  have h : ∀ j < 5, ∀ i ≤ j, rlen (fun i => [0, 20, 3020, 3920, 5420, 5440].getD i 0) ([1, 3, 2, 0, 4].getD j 0) ≤
    rlen (fun i => [0, 20, 3020, 3920, 5420, 5440].getD i 0) ([1, 3, 2, 0, 4].getD i 0) := by decide
  exact h j hj i hij

example : splitOf (fun m => m / 10) (rlen fun i => [0, 20, 3020, 3920, 5420, 5440].getD i 0) 5 = ⟨2, 3000, 900⟩ := by decide

/-- False: that the two agree on a list of rows that is not sorted. The CPU stops at the first short row, the GPU counts the long rows of a chunk of 1024. -/
theorem C90_unsorted : ∃ off idx : ℕ → ℕ, splitCpu (fun m => m / 10) idx off 3 = ⟨1, 1024, 0⟩ ∧ splitGpu (fun m => m / 10) idx off 3 = ⟨2, 1024, 1024⟩ := by
  refine ⟨fun i => [0, 1024, 1024, 2048].getD i 0, id, by decide, ?_⟩
  decide +kernel

/-! ### Shared memory -/

/-- Threads of one process launch kernels on any devices, and every launch asks for the shared memory that it uses: no launch fails for want of the attribute, whatever
the order in which the threads run. -/
theorem C90_shmem (limit : ℕ → ℕ) (todo : ℕ → List Req) (hask : ∀ t, ∀ r ∈ todo t, r.use ≤ r.ask) (schedule : List ℕ) :
    (exec limit schedule (Proc.start todo)).failed = false := (inv_exec schedule _ (inv_start hask)).failed

/-- The process ends only if a launch asks for more than its device has. -/
theorem C90_exit (limit : ℕ → ℕ) (todo : ℕ → List Req) (schedule : List ℕ) (h : (exec limit schedule (Proc.start todo)).exited = true) :
    ∃ t, ∃ r ∈ todo t, limit r.dev < r.ask := exec_exited schedule _ rfl h

/-- A schedule in rounds in which each of `T` threads makes at least one step. -/
def Rounds (T : ℕ) (rounds : List (List ℕ)) : Prop := ∀ l ∈ rounds, (∀ t ∈ l, t < T) ∧ ∀ t < T, t ∈ l

/-- Nobody waits for ever: if no launch asks for more than its device has, all launches are made after seven rounds per launch, and none fails. -/
theorem C90_finishes (limit : ℕ → ℕ) (T : ℕ) (todo : ℕ → List Req) (hT : ∀ t, T ≤ t → todo t = []) (hask : ∀ t, ∀ r ∈ todo t, r.use ≤ r.ask ∧ r.ask ≤ limit r.dev)
    (rounds : List (List ℕ)) (hr : Rounds T rounds) (hn : 7 * ∑ t ∈ range T, (todo t).length ≤ rounds.length) :
    (∀ t, (exec limit rounds.flatten (Proc.start todo)).todo t = []) ∧ (exec limit rounds.flatten (Proc.start todo)).failed = false ∧
      (exec limit rounds.flatten (Proc.start todo)).exited = false := by
  have hi := inv_start fun t r h => (hask t r h).1
  have hf := C90_shmem limit todo (fun t r h => (hask t r h).1) rounds.flatten
  have he : (exec limit rounds.flatten (Proc.start todo)).exited = false := by
    rw [← Bool.not_eq_true]
    intro h
    obtain ⟨t, r, h1, h2⟩ := C90_exit limit todo _ h
    have := (hask t r h1).2
    omega
  refine ⟨?_, hf, he⟩
  rcases rounds_finish (limit := limit) rounds hr (Proc.start todo) hi hT (by rw [leftAll_start]; exact hn) with h | h
  · rw [he] at h; cases h
  · exact h

/-- The mutex is held by at most one thread: at every moment at most one thread is between taking and releasing it. -/
theorem C90_mutex (limit : ℕ → ℕ) (todo : ℕ → List Req) (hask : ∀ t, ∀ r ∈ todo t, r.use ≤ r.ask) (schedule : List ℕ) (t u : ℕ)
    (ht : (exec limit schedule (Proc.start todo)).pc t ∈ [Pc.compare, .set, .note, .unlock])
    (hu : (exec limit schedule (Proc.start todo)).pc u ∈ [Pc.compare, .set, .note, .unlock]) : t = u := by
  have h := inv_exec (limit := limit) schedule _ (inv_start hask)
  have crit : ∀ p : Pc, p ∈ [Pc.compare, .set, .note, .unlock] → p.crit := by
    intro p hp
    cases p <;> trivial
  exact h.unique (crit _ hu) (crit _ ht)

/-- The attribute of a kernel never shrinks below what a launch in preparation asked for: two threads that ask for 60000 and 100000 bytes of the same kernel. -/
example : ∀ schedule, (exec (fun _ => 232448) schedule (Proc.start fun t => if t = 0 then [⟨0, 3, 100000, 100000⟩] else if t = 1 then [⟨0, 3, 60000, 60000⟩] else [])).failed = false :=
  fun schedule => C90_shmem _ _ (fun t r h => by
    split_ifs at h
    · rw [List.mem_singleton] at h; subst h; exact le_rfl
    · rw [List.mem_singleton] at h; subst h; exact le_rfl
    · cases h) schedule

example : Rounds 2 (List.replicate 14 [1, 0]) := by
  intro l hl
  rw [List.eq_of_mem_replicate hl]
  exact ⟨by decide, by decide⟩

/-- A launch that asks for more than the device has does end the process. -/
theorem C90_too_much (limit : ℕ → ℕ) (r : Req) (h48 : 48 * 1024 < r.ask) (hr : limit r.dev < r.ask) :
    (exec limit [0, 0, 0, 0] (Proc.start fun t => if t = 0 then [r] else [])).exited = true := by
  have h1 : ¬ r.ask ≤ 48 * 1024 := by omega
  have h2 : ¬ r.ask ≤ 0 := by omega
  have h3 : ¬ r.ask ≤ limit r.dev := by omega
  simp [exec, step, Proc.start, Proc.goto, h1, h2, h3]

/-! ### The PTX version -/

/-- Every call of `getPtxver` that has returned has returned the version of the device it was made for, whatever the order in which the calls make their steps and
whichever of the values ever stored their relaxed loads see. -/
theorem C90_ptx (version dev : ℕ → ℕ) (schedule : List (ℕ × ℕ)) (t v : ℕ) (h : (ptxExec version dev schedule PtxState.start).pc t = .done v) : v = version (dev t) :=
  (ptx_exec schedule PtxState.start ⟨fun d v hv => .inl (List.mem_singleton.mp hv), fun t v h => (by cases h), fun t v h => (by cases h)⟩).2.2 t v h

/-- And a call returns after three steps of its own at most. -/
theorem C90_ptx_returns (version dev : ℕ → ℕ) (s : PtxState) (t p q w : ℕ) : ∃ v, (ptxExec version dev [(t, p), (t, q), (t, w)] s).pc t = .done v := by
  show ∃ v, (ptxStep version dev t w (ptxStep version dev t q (ptxStep version dev t p s))).pc t = .done v
  have done : ∀ s v k, s.pc t = .done v → (ptxStep version dev t k s).pc t = .done v := by
    intro s v k h
    unfold ptxStep
    rw [h]
    exact h
  have store : ∀ s v k, s.pc t = .store v → (ptxStep version dev t k s).pc t = .done v := by
    intro s v k h
    unfold ptxStep
    rw [h]
    exact Function.update_self ..
  have query : ∀ s k, s.pc t = .query → (∃ v, (ptxStep version dev t k s).pc t = .done v) ∨ ∃ v, (ptxStep version dev t k s).pc t = .store v := by
    intro s k h
    unfold ptxStep
    rw [h]
    dsimp only
    split_ifs
    · exact .inr ⟨_, Function.update_self ..⟩
    · exact .inl ⟨_, Function.update_self ..⟩
  have load : ∀ s k, s.pc t = .load → (∃ v, (ptxStep version dev t k s).pc t = .done v) ∨ (ptxStep version dev t k s).pc t = .query := by
    intro s k h
    unfold ptxStep
    rw [h]
    dsimp only
    split_ifs
    · exact .inl ⟨_, Function.update_self ..⟩
    · exact .inr (Function.update_self ..)
    · exact .inr (Function.update_self ..)
  match h : s.pc t with
  | .done v => exact ⟨v, done _ _ _ (done _ _ _ (done _ _ _ h))⟩
  | .store v => exact ⟨v, done _ _ _ (done _ _ _ (store _ _ _ h))⟩
  | .query =>
    rcases query s p h with ⟨v, hv⟩ | ⟨v, hv⟩
    · exact ⟨v, done _ _ _ (done _ _ _ hv)⟩
    · exact ⟨v, done _ _ _ (store _ _ _ hv)⟩
  | .load =>
    rcases load s p h with ⟨v, hv⟩ | hv
    · exact ⟨v, done _ _ _ (done _ _ _ hv)⟩
    · rcases query _ q hv with ⟨v, hv'⟩ | ⟨v, hv'⟩
      · exact ⟨v, done _ _ _ hv'⟩
      · exact ⟨v, store _ _ _ hv'⟩

/-- Two calls on device 1, the second of which sees the old zero although the first has stored 90: it asks again and returns 90 too. -/
example : (ptxExec (fun d => 80 + 10 * d) (fun _ => 1) [(0, 0), (0, 0), (0, 0), (1, 0), (1, 0), (1, 0)] PtxState.start).pc 1 = .done 90 := rfl

end Verif.Props
