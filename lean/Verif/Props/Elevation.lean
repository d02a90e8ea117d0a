import Verif.Lemmas.Elevation
/-!
C91: `load_mola_elevation`, the cached elevation map of Mars.
-/
namespace Verif.Props
open Verif Verif.Elevation

/-- The steps a process that is alone still has to make at most. -/
private def togo (b : Bytes) : Pc → ℕ
  | .check => b.length + 6
  | .connect => b.length + 5
  | .opening => b.length + 4
  | .read => b.length + 3
  | .write _ o => b.length - o + 2
  | .load => 1
  | .done _ => 0

private theorem togo_step {W : World} {b : Bytes} {t : ℕ} (hc : W.connect t = true) (hb : W.body t = some b) {s : State} (h : Alone W b t s) {n : ℕ} (hn : 0 < n) :
    togo b ((step W t n s).pc t) ≤ togo b (s.pc t) - 1 := by
  unfold step
  cases h with
  | check e f => rw [e]; dsimp only; rw [Function.update_self, if_pos f]; exact le_rfl
  | connect e f => rw [e]; dsimp only; rw [Function.update_self, if_pos hc]; exact le_rfl
  | opening e f => rw [e]; dsimp only; rw [Function.update_self]; exact le_rfl
  | read e f => rw [e]; dsimp only; rw [Function.update_self, hb]; exact le_rfl
  | write o ho e f =>
    rw [e]
    dsimp only
    split_ifs with hle
    · dsimp only; rw [Function.update_self]; show 1 ≤ b.length - o + 2 - 1; omega
    · dsimp only
      rw [Function.update_self]
      show b.length - (o + ((b.drop o).take n).length) + 2 ≤ b.length - o + 2 - 1
      rw [List.length_take, List.length_drop]
      omega
  | load e f => rw [e]; dsimp only; rw [Function.update_self]; exact le_rfl
  | done e f => rw [e]; dsimp only; rw [e]; exact le_rfl

/-- C91. A call that finds no file and is not disturbed downloads the picture: however its writing is cut into pieces, it returns after finitely many steps, what it
returns is the downloaded picture, and the downloaded bytes are in the cache. At every moment before, the cached file does not exist or holds a beginning of the
download. -/
theorem C91_first (W : World) (t : ℕ) (b : Bytes) (hc : W.connect t = true) (hb : W.body t = some b) (s : State) (h1 : s.pc t = .check) (h2 : s.file = none) (l : List ℕ) :
    ((run W (l.map fun n => (t, n)) s).file = none ∨ ∃ k ≤ b.length, (run W (l.map fun n => (t, n)) s).file = some (b.take k)) ∧
    (∀ r, (run W (l.map fun n => (t, n)) s).pc t = .done r →
      (run W (l.map fun n => (t, n)) s).file = some b ∧ r = match W.decode b with | some p => .ok p | none => .error .unreadable) ∧
    ((∀ n ∈ l, 0 < n) → b.length + 6 ≤ l.length → ∃ r, (run W (l.map fun n => (t, n)) s).pc t = .done r) := by
  have hA : Alone W b t s := .check h1 h2
  have hR := alone_run hc hb l s hA
  have hl : loaded W b = match W.decode b with | some p => .ok p | none => .error .unreadable := by
    unfold loaded
    cases W.decode b <;> rfl
  refine ⟨?_, fun r hr => ?_, fun hn hlen => ?_⟩
  · cases hR with
    | check _ f => exact .inl f
    | connect _ f => exact .inl f
    | opening _ f => exact .inl f
    | read _ f => exact .inr ⟨0, Nat.zero_le _, f⟩
    | write o ho _ f => exact .inr ⟨o, ho, f⟩
    | load _ f => exact .inr ⟨b.length, le_rfl, by rw [f, List.take_length]⟩
    | done _ f => exact .inr ⟨b.length, le_rfl, by rw [f, List.take_length]⟩
  · cases hR with
    | done e f =>
      rw [hr] at e
      exact ⟨f, (Pc.done.inj e).trans hl⟩
    | check e _ => rw [hr] at e; cases e
    | connect e _ => rw [hr] at e; cases e
    | opening e _ => rw [hr] at e; cases e
    | read e _ => rw [hr] at e; cases e
    | write _ _ e _ => rw [hr] at e; cases e
    | load e _ => rw [hr] at e; cases e
  · have key : ∀ (l : List ℕ), (∀ n ∈ l, 0 < n) → ∀ s, Alone W b t s → togo b ((run W (l.map fun n => (t, n)) s).pc t) ≤ togo b (s.pc t) - l.length := by
      intro l
      induction l with
      | nil => exact fun _ s _ => le_rfl
      | cons n l ih =>
        intro hn s hs
        have i1 := ih (fun m hm => hn m (List.mem_cons_of_mem _ hm)) _ (alone_step hc hb hs n)
        have i2 := togo_step hc hb hs (hn n List.mem_cons_self)
        rw [List.length_cons]
        change togo b ((run W (l.map fun n => (t, n)) (step W t n s)).pc t) ≤ _
        omega
    have := key l hn s hA
    rw [h1] at this
    change _ ≤ b.length + 6 - l.length at this
    have h0 : togo b ((run W (l.map fun n => (t, n)) s).pc t) = 0 := by omega
    match hp : (run W (l.map fun n => (t, n)) s).pc t with
    | .done r => exact ⟨r, rfl⟩
    | .check => rw [hp] at h0; change b.length + 6 = 0 at h0; omega
    | .connect => rw [hp] at h0; change b.length + 5 = 0 at h0; omega
    | .opening => rw [hp] at h0; change b.length + 4 = 0 at h0; omega
    | .read => rw [hp] at h0; change b.length + 3 = 0 at h0; omega
    | .write _ o => rw [hp] at h0; change b.length - o + 2 = 0 at h0; omega
    | .load => rw [hp] at h0; change 1 = 0 at h0; omega

/-- C91. Once a file is in the cache, it stays as it is and nothing is downloaded any more, whatever the network does: every later call returns what the file decodes to,
in every interleaving of any number of processes. -/
theorem C91_cached (W : World) (f : Bytes) (l : List (ℕ × ℕ)) :
    (run W l (start (some f))).file = some f ∧
      ∀ t r, (run W l (start (some f))).pc t = .done r → r = match W.decode f with | some p => .ok p | none => .error .unreadable := by
  have h := existing_run (W := W) (P := fun _ => True) l (fun _ _ => trivial) (start (some f)) ⟨rfl, fun _ _ => .inl rfl⟩
  refine ⟨h.file, fun t r hr => ?_⟩
  have hl : loaded W f = match W.decode f with | some p => .ok p | none => .error .unreadable := by
    unfold loaded
    cases W.decode f <;> rfl
  rcases h.pc t trivial with e | e | e
  · rw [hr] at e; cases e
  · rw [hr] at e; cases e
  · rw [hr] at e; exact (Pc.done.inj e).trans hl

/-- C91. If no connection can be made, no file is left behind, so that a later call with a connection succeeds (`C91_first`). -/
theorem C91_offline (W : World) (hc : ∀ t, W.connect t = false) (l : List (ℕ × ℕ)) :
    (run W l (start none)).file = none ∧ ∀ t, (run W l (start none)).pc t = .check ∨ (run W l (start none)).pc t = .connect ∨
      (run W l (start none)).pc t = .done (.error .network) := by
  have key : ∀ (l : List (ℕ × ℕ)) s, (s.file = none ∧ ∀ t, s.pc t = .check ∨ s.pc t = .connect ∨ s.pc t = .done (.error .network)) →
      (run W l s).file = none ∧ ∀ t, (run W l s).pc t = .check ∨ (run W l s).pc t = .connect ∨ (run W l s).pc t = .done (.error .network) := by
    intro l
    induction l with
    | nil => exact fun s h => h
    | cons a l ih =>
      intro s h
      refine ih _ ?_
      obtain ⟨h1, h2⟩ := h
      have upd : ∀ p, (p = .check ∨ p = .connect ∨ p = .done (.error .network)) → ∀ u,
          (Function.update s.pc a.1 p u = .check ∨ Function.update s.pc a.1 p u = .connect ∨ Function.update s.pc a.1 p u = .done (.error .network)) := by
        intro p hp u
        by_cases hu : u = a.1
        · rw [hu, Function.update_self]; exact hp
        · rw [Function.update_of_ne hu]; exact h2 u
      unfold step
      rcases h2 a.1 with e | e | e
      · rw [e]; exact ⟨h1, upd _ (.inr (.inl (by rw [if_pos h1])))⟩
      · rw [e]; exact ⟨h1, upd _ (.inr (.inr (by rw [hc]; rfl)))⟩
      · rw [e]; exact ⟨h1, h2⟩
  exact key l (start none) ⟨rfl, fun _ => .inl rfl⟩

/-- C91. Any number of processes may download at the same time: if the response is the same for all, then whenever nobody has the file open, there is no file or a
complete one, in whatever order the processes open, empty and write it. -/
theorem C91_converges (W : World) (b : Bytes) (hb : ∀ t, W.body t = some b) (l : List (ℕ × ℕ))
    (hq : ∀ t, (run W l (start none)).pc t ≠ .read ∧ ∀ c o, (run W l (start none)).pc t ≠ .write c o) :
    (run W l (start none)).file = none ∨ (run W l (start none)).file = some b := by
  have h := inv_run hb l _ (inv_start b)
  cases hf : (run W l (start none)).file with
  | none => exact .inl rfl
  | some f =>
    right
    obtain ⟨h1, h2⟩ := h.present f hf
    rcases h2 with ⟨w, hw⟩ | ⟨w, o, hw, _⟩ | ha
    · exact absurd hw (hq w).1
    · exact absurd hw ((hq w).2 b o)
    · rw [eq_of_agree h1 ha]

/-! ### What is false -/

/-- C91, negative. A call that is killed while it writes leaves a truncated file behind, after any number `k` of bytes. If PIL cannot read it, no later call ever succeeds,
although the network works: nobody downloads the picture again. -/
theorem C91_killed (W : World) (b : Bytes) (hc : W.connect 0 = true) (hb : W.body 0 = some b) (k : ℕ) (hk : k < b.length) (hd : W.decode (b.take k) = none) :
    ∃ l : List ℕ, let s := run W (l.map fun n => (0, n)) (start none)
      s.file = some (b.take k) ∧ s.pc 0 = .write b k ∧
      ∀ later : List (ℕ × ℕ), (∀ a ∈ later, a.1 ≠ 0) → (run W later s).file = some (b.take k) ∧
        ∀ t ≠ 0, ∀ r, (run W later s).pc t = .done r → r = .error .unreadable := by
  refine ⟨[1, 1, 1, 1, k], ?_⟩
  have hlen : ((b.drop 0).take k).length = k := by rw [List.drop_zero, List.length_take]; omega
  obtain ⟨s, hs⟩ : ∃ s, s = run W (([1, 1, 1, 1, k] : List ℕ).map fun n => (0, n)) (start none) := ⟨_, rfl⟩
  have hfile : s.file = some (b.take k) ∧ s.pc 0 = .write b k := by
    rw [hs]
    simp only [List.map_cons, List.map_nil, run, step, start, Function.update_self, hc, hb, if_true]
    rw [if_neg (by omega)]
    dsimp only
    rw [Function.update_self, hlen, Option.map_some, Nat.zero_add]
    refine ⟨?_, rfl⟩
    have := writeAt_take (b := b) (o := 0) (n := k) (Nat.zero_le _)
    rw [hlen, List.take_zero, Nat.zero_add] at this
    rw [this]
  rw [← hs]
  dsimp only
  refine ⟨hfile.1, hfile.2, fun later hl => ?_⟩
  have hpc : ∀ t, t ≠ 0 → s.pc t = .check := by
    intro t ht
    rw [hs, run_other W t _ (by
      intro a ha
      obtain ⟨n, _, rfl⟩ := List.mem_map.mp ha
      exact Ne.symm ht)]
    rfl
  have h := existing_run (W := W) (f := b.take k) (P := fun t => t ≠ 0) later hl s ⟨hfile.1, fun t ht => .inl (hpc t ht)⟩
  refine ⟨h.file, fun t ht r hr => ?_⟩
  rcases h.pc t ht with e | e | e
  · rw [hr] at e; cases e
  · rw [hr] at e; cases e
  · rw [hr] at e
    have := Pc.done.inj e
    unfold loaded at this
    rw [hd] at this
    exact this

/-- C91, negative. A network that fails while the response is read has the same effect: the call raises and leaves an empty file behind, and no later call succeeds. -/
theorem C91_read_error (W : World) (hc : W.connect 0 = true) (hb : W.body 0 = none) (hd : W.decode [] = none) :
    ∃ l : List ℕ, let s := run W (l.map fun n => (0, n)) (start none)
      s.pc 0 = .done (.error .network) ∧ s.file = some [] ∧
      ∀ later : List (ℕ × ℕ), (run W later s).file = some [] ∧ ∀ t ≠ 0, ∀ r, (run W later s).pc t = .done r → r = .error .unreadable := by
  refine ⟨[1, 1, 1, 1], ?_⟩
  obtain ⟨s, hs⟩ : ∃ s, s = run W (([1, 1, 1, 1] : List ℕ).map fun n => (0, n)) (start none) := ⟨_, rfl⟩
  have hfile : s.file = some [] ∧ s.pc 0 = .done (.error .network) := by
    rw [hs]
    simp only [List.map_cons, List.map_nil, run, step, start, Function.update_self, hc, hb, if_true]
    exact ⟨trivial, trivial⟩
  rw [← hs]
  dsimp only
  refine ⟨hfile.2, hfile.1, ?_⟩
  have hpc : ∀ t, t ≠ 0 → s.pc t = .check := by
    intro t ht
    rw [hs, run_other W t _ (by
      intro a ha
      obtain ⟨n, _, rfl⟩ := List.mem_map.mp ha
      exact Ne.symm ht)]
    rfl
  -- process 0 is done and makes no more steps
  have key : ∀ (later : List (ℕ × ℕ)) (s : State), s.pc 0 = .done (.error .network) → Existing W [] (fun t => t ≠ 0) s → Existing W [] (fun t => t ≠ 0) (run W later s) := by
    intro later
    induction later with
    | nil => exact fun s _ h => h
    | cons a l ih =>
      intro s h0 h
      by_cases ha : a.1 = 0
      · have : step W a.1 a.2 s = s := by
          unfold step
          rw [ha, h0]
        show Existing W [] _ (run W l (step W a.1 a.2 s))
        rw [this]
        exact ih s h0 h
      · exact ih _ (by rw [step_other _ _ _ _ (Ne.symm ha)]; exact h0) (existing_step h ha a.2)
  intro later
  have h := key later s hfile.2 ⟨hfile.1, fun t ht => .inl (hpc t ht)⟩
  refine ⟨h.file, fun t ht r hr => ?_⟩
  rcases h.pc t ht with e | e | e
  · rw [hr] at e; cases e
  · rw [hr] at e; cases e
  · rw [hr] at e
    have := Pc.done.inj e
    unfold loaded at this
    rw [hd] at this
    exact this

/-- C91, negative. Two processes that call at the same time: the second may find the file just opened by the first and fail, although either alone would succeed. -/
theorem C91_race (W : World) (hc : W.connect 0 = true) (hd : W.decode [] = none) :
    ∃ l : List (ℕ × ℕ), (run W l (start none)).pc 1 = .done (.error .unreadable) := by
  refine ⟨[(0, 1), (0, 1), (0, 1), (1, 1), (1, 1)], ?_⟩
  simp [run, step, start, hc, hd, Function.update]

/-- The hypotheses are met: a download of three bytes, of which PIL can only read the whole. -/
example : let W : World := ⟨fun _ => true, fun _ => some [255, 216, 7], fun f => if f = [255, 216, 7] then some ⟨1, 1, fun _ _ => 7⟩ else none⟩
    W.connect 0 = true ∧ W.body 0 = some [255, 216, 7] ∧ W.decode [] = none ∧ W.decode ([255, 216, 7].take 2) = none ∧ (W.decode [255, 216, 7]).isSome = true := by
  decide

example : (run ⟨fun _ => true, fun _ => some [255, 216, 7], fun _ => none⟩
    [(0, 1), (1, 1), (0, 1), (1, 1), (0, 1), (0, 1), (0, 2), (1, 1), (1, 1), (0, 5), (0, 1), (1, 1), (1, 2), (1, 1)] (start none)).file = some [255, 216, 7] := rfl

/-! ### The tensor -/

/-- C91. Without target sizes, or with only one of them, the tensor has the size of the picture and its grey values divided by 255: a single size is ignored. -/
theorem C91_native (p : Picture) (n : ℤ) : tensor p none none = .ok (p.h, p.w, fun i j => (p.val i j : ℝ) / 255) ∧
    tensor p (some n) none = tensor p none none ∧ tensor p none (some n) = tensor p none none := ⟨rfl, rfl, rfl⟩

/-- C91. With both, the tensor has that size, values in [0, 1], and lies between the bounds of the picture; sizes that are not positive raise. -/
theorem C91_resized (p : Picture) (hp : 0 < p.h ∧ 0 < p.w) (h w : ℤ) :
    (h ≤ 0 ∨ w ≤ 0 → tensor p (some h) (some w) = .error .runtimeError) ∧
    (0 < h → 0 < w → ∃ f, tensor p (some h) (some w) = .ok (h.toNat, w.toNat, f) ∧
      ∀ lo hi : ℕ, (∀ i < p.h, ∀ j < p.w, lo ≤ p.val i j ∧ p.val i j ≤ hi) → ∀ i < h.toNat, ∀ j < w.toNat, (lo : ℝ) / 255 ≤ f i j ∧ f i j ≤ (hi : ℝ) / 255) := by
  refine ⟨fun hn => if_pos hn, fun hh hw => ⟨_, if_neg (by omega), fun lo hi hb i hi' j hj => ?_⟩⟩
  refine lerp_between hp.1 hi' fun k hk => lerp_between hp.2 hj fun l hl => ?_
  obtain ⟨h1, h2⟩ := hb k hk l hl
  have h1' : (lo : ℝ) ≤ (p.val k l : ℝ) := by exact_mod_cast h1
  have h2' : (p.val k l : ℝ) ≤ (hi : ℝ) := by exact_mod_cast h2
  exact ⟨div_le_div_of_nonneg_right h1' (by norm_num), div_le_div_of_nonneg_right h2' (by norm_num)⟩

/-- C91. In particular the values are in [0, 1] for a picture of bytes. -/
theorem C91_unit (p : Picture) (hp : 0 < p.h ∧ 0 < p.w) (hb : ∀ i < p.h, ∀ j < p.w, p.val i j ≤ 255) (nlat nlon : Option ℤ) (H W : ℕ) (f : ℕ → ℕ → ℝ)
    (h : tensor p nlat nlon = .ok (H, W, f)) : ∀ i < H, ∀ j < W, 0 ≤ f i j ∧ f i j ≤ 1 := by
  have hnat : tensor p none none = .ok (H, W, f) → ∀ i < H, ∀ j < W, 0 ≤ f i j ∧ f i j ≤ 1 := by
    intro e i hi j hj
    simp only [tensor, Except.ok.injEq, Prod.mk.injEq] at e
    obtain ⟨rfl, rfl, rfl⟩ := e
    have : (p.val i j : ℝ) ≤ 255 := by exact_mod_cast hb i hi j hj
    exact ⟨by positivity, by rw [div_le_one (by norm_num)]; exact this⟩
  match nlat, nlon with
  | none, none => exact hnat h
  | some _, none => exact hnat h
  | none, some _ => exact hnat h
  | some n, some m =>
    by_cases hn : n ≤ 0 ∨ m ≤ 0
    · rw [(C91_resized p hp n m).1 hn] at h; cases h
    · obtain ⟨g, e, hg⟩ := (C91_resized p hp n m).2 (by omega) (by omega)
      rw [e, Except.ok.injEq, Prod.mk.injEq, Prod.mk.injEq] at h
      obtain ⟨rfl, rfl, rfl⟩ := h
      intro i hi j hj
      have := hg 0 255 (fun i hi j hj => ⟨Nat.zero_le _, hb i hi j hj⟩) i hi j hj
      norm_num at this
      exact this

/-- C91. Interpolation to the size of the picture changes nothing. -/
theorem C91_same_size (p : Picture) (hp : 0 < p.h ∧ 0 < p.w) :
    ∃ f, tensor p (some p.h) (some p.w) = .ok (p.h, p.w, f) ∧ ∀ i < p.h, ∀ j < p.w, f i j = (p.val i j : ℝ) / 255 := by
  refine ⟨_, by unfold tensor; dsimp only; rw [if_neg (by omega)]; simp only [Int.toNat_natCast]; rfl, fun i hi j hj => ?_⟩
  rw [lerp_same hi, lerp_same hj]

/-- C91, negative. The interpolation does not know that longitudes are periodic: turning the picture by one column does not turn the result by the corresponding two, as
the columns at the seam are repeated instead of mixed. -/
theorem C91_seam : ∃ (p q : Picture) (f g : ℕ → ℕ → ℝ), p.h = 1 ∧ p.w = 2 ∧ (∀ i j, q.val i j = p.val i ((j + 1) % 2)) ∧ q.h = 1 ∧ q.w = 2 ∧
    tensor p (some 1) (some 4) = .ok (1, 4, f) ∧ tensor q (some 1) (some 4) = .ok (1, 4, g) ∧ g 0 0 ≠ f 0 2 := by
  refine ⟨⟨1, 2, fun _ j => if j = 0 then 0 else 255⟩, ⟨1, 2, fun _ j => if (j + 1) % 2 = 0 then 0 else 255⟩, _, _, rfl, rfl, fun _ _ => rfl, rfl, rfl, rfl, rfl, ?_⟩
  have s0 : source 2 4 0 = 0 := by unfold source; norm_num
  have s2 : source 2 4 2 = 3 / 4 := by unfold source; norm_num
  have t0 : source 1 1 0 = 0 := by unfold source; norm_num
  have f2 : ⌊(3 / 4 : ℝ)⌋₊ = 0 := by rw [Nat.floor_eq_zero]; norm_num
  show lerp 1 1 _ 0 ≠ lerp 1 1 _ 0
  rw [lerp_same (by norm_num), lerp_same (by norm_num)]
  unfold lerp
  rw [show Int.toNat 4 = 4 from rfl]
  dsimp only
  simp only [s0, s2, f2, Nat.floor_zero]
  norm_num

example : ∃ p : Picture, (0 < p.h ∧ 0 < p.w) ∧ ∀ i < p.h, ∀ j < p.w, p.val i j ≤ 255 := ⟨⟨2, 3, fun i j => 100 * i + j⟩, by decide, by decide⟩

end Verif.Props
