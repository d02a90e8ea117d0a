import Verif.Model.Elevation
/-!
Lemmas on the cached elevation map.
-/
namespace Verif.Elevation
open Verif

/-- The process has the file open. -/
def Pc.writing : Pc → Prop
  | .read => True
  | .write _ _ => True
  | _ => False

theorem writeAt_get (f : Bytes) (o : ℕ) (d : Bytes) (i : ℕ) :
    (writeAt f o d)[i]? = if i < o then (f ++ List.replicate (o - f.length) 0)[i]? else if i < o + d.length then d[i - o]? else f[i]? := by
  unfold writeAt
  have hl : ((f ++ List.replicate (o - f.length) 0).take o).length = o := by
    rw [List.length_take, List.length_append, List.length_replicate]; omega
  rw [List.append_assoc]
  by_cases h1 : i < o
  · rw [if_pos h1, List.getElem?_append_left (by rw [hl]; exact h1), List.getElem?_take_of_lt h1]
  · rw [if_neg h1, List.getElem?_append_right (by rw [hl]; omega), hl]
    by_cases h2 : i < o + d.length
    · rw [if_pos h2, List.getElem?_append_left (by omega)]
    · rw [if_neg h2, List.getElem?_append_right (by omega), List.getElem?_drop]
      congr 1
      omega

theorem writeAt_length (f : Bytes) (o : ℕ) (d : Bytes) : (writeAt f o d).length = max (o + d.length) f.length := by
  unfold writeAt
  simp only [List.length_append, List.length_take, List.length_replicate, List.length_drop]
  omega

theorem piece_get {b : Bytes} {o n i : ℕ} (h1 : o ≤ i) (h2 : i < o + ((b.drop o).take n).length) : ((b.drop o).take n)[i - o]? = b[i]? := by
  rw [List.length_take, List.length_drop] at h2
  rw [List.getElem?_take_of_lt (by omega), List.getElem?_drop]
  congr 1
  omega

/-- What agrees with `b` up to `k` still does after a piece of `b` has been written in its place. -/
theorem writeAt_keeps {f b : Bytes} {o n k : ℕ} (hk : k ≤ b.length) (h : ∀ i < k, f[i]? = b[i]?) : ∀ i < k, (writeAt f o ((b.drop o).take n))[i]? = b[i]? := by
  intro i hi
  have hfi := h i hi
  have hlt : i < f.length := by
    rw [List.getElem?_eq_getElem (show i < b.length by omega)] at hfi
    exact (List.getElem?_eq_some_iff.mp hfi).1
  rw [writeAt_get]
  split_ifs with h1 h2
  · rw [List.getElem?_append_left hlt, hfi]
  · exact piece_get (by omega) h2
  · exact hfi

/-- The writer of the piece is further on. -/
theorem writeAt_extends {f b : Bytes} {o n : ℕ} (ho : o ≤ b.length) (h : ∀ i < o, f[i]? = b[i]?) :
    ∀ i < o + ((b.drop o).take n).length, (writeAt f o ((b.drop o).take n))[i]? = b[i]? := by
  intro i hi
  by_cases h1 : i < o
  · exact writeAt_keeps ho h i h1
  · rw [writeAt_get, if_neg h1, if_pos hi]
    exact piece_get (by omega) hi

theorem piece_le {b : Bytes} {o n : ℕ} (ho : o ≤ b.length) : o + ((b.drop o).take n).length ≤ b.length := by
  rw [List.length_take, List.length_drop]; omega

theorem eq_of_agree {f b : Bytes} (hl : f.length ≤ b.length) (h : ∀ i < b.length, f[i]? = b[i]?) : f = b := by
  refine List.ext_getElem? fun i => ?_
  by_cases hi : i < b.length
  · exact h i hi
  · rw [List.getElem?_eq_none (by omega), List.getElem?_eq_none (by omega)]

/-! ### Everybody downloads the same -/

/-- What holds at every moment: writers write `b`, the file is no longer than `b`, and the process that opened it last has written all of it up to its position. -/
structure Inv (b : Bytes) (s : State) : Prop where
  same : ∀ t c o, s.pc t = .write c o → c = b ∧ o ≤ b.length
  absent : s.file = none → ∀ t, ¬ (s.pc t).writing
  present : ∀ f, s.file = some f → f.length ≤ b.length ∧
    ((∃ w, s.pc w = .read) ∨ (∃ w o, s.pc w = .write b o ∧ ∀ i < o, f[i]? = b[i]?) ∨ ∀ i < b.length, f[i]? = b[i]?)

theorem inv_start (b : Bytes) : Inv b (start none) :=
  ⟨fun _ _ _ h => (by cases h), fun _ _ h => h, fun _ h => (by cases h)⟩

/-- A step of process `t` that leaves the file alone and takes `t` to a place without the file, from a place without the file. -/
theorem inv_quiet {b : Bytes} {s : State} (h : Inv b s) {t : ℕ} {p : Pc} (h0 : ¬ (s.pc t).writing) (hp : ¬ p.writing) : Inv b { s with pc := Function.update s.pc t p } := by
  have hpc : ∀ u, Function.update s.pc t p u = if u = t then p else s.pc u := fun u => Function.update_apply ..
  refine ⟨fun u c o hu => ?_, fun hf u hu => ?_, fun f hf => ?_⟩
  · change Function.update s.pc t p u = _ at hu
    rw [hpc] at hu
    split_ifs at hu with hut
    · rw [hu] at hp; exact absurd trivial hp
    · exact h.same u c o hu
  · change (Function.update s.pc t p u).writing at hu
    rw [hpc] at hu
    split_ifs at hu with hut
    · exact hp hu
    · exact h.absent hf u hu
  · obtain ⟨h1, h2⟩ := h.present f hf
    refine ⟨h1, ?_⟩
    rcases h2 with ⟨w, hw⟩ | ⟨w, o, hw, ha⟩ | ha
    · left
      refine ⟨w, ?_⟩
      show Function.update s.pc t p w = _
      rw [hpc, if_neg (by rintro rfl; rw [hw] at h0; exact h0 trivial)]
      exact hw
    · refine .inr (.inl ⟨w, o, ?_, ha⟩)
      show Function.update s.pc t p w = _
      rw [hpc, if_neg (by rintro rfl; rw [hw] at h0; exact h0 trivial)]
      exact hw
    · exact .inr (.inr ha)

theorem inv_step {W : World} {b : Bytes} (hb : ∀ t, W.body t = some b) {s : State} (h : Inv b s) (t n : ℕ) : Inv b (step W t n s) := by
  unfold step
  match hpc : s.pc t with
  | .check =>
    refine inv_quiet h (by rw [hpc]; exact not_false) ?_
    split_ifs <;> exact not_false
  | .connect =>
    refine inv_quiet h (by rw [hpc]; exact not_false) ?_
    split_ifs <;> exact not_false
  | .load => exact inv_quiet h (by rw [hpc]; exact not_false) not_false
  | .done _ => exact h
  | .opening =>
    have hp : ∀ u, Function.update s.pc t Pc.read u = if u = t then .read else s.pc u := fun u => Function.update_apply ..
    refine ⟨fun u c o hu => ?_, fun hf => (by cases hf), fun f hf => ?_⟩
    · change Function.update s.pc t _ u = _ at hu
      rw [hp] at hu
      split_ifs at hu with hut
      exact h.same u c o hu
    · obtain rfl : [] = f := Option.some.inj hf
      exact ⟨Nat.zero_le _, .inl ⟨t, Function.update_self ..⟩⟩
  | .read =>
    dsimp only
    rw [hb t]
    dsimp only
    have hp : ∀ u, Function.update s.pc t (Pc.write b 0) u = if u = t then .write b 0 else s.pc u := fun u => Function.update_apply ..
    refine ⟨fun u c o hu => ?_, fun hf u hu => ?_, fun f hf => ?_⟩
    · change Function.update s.pc t _ u = _ at hu
      rw [hp] at hu
      split_ifs at hu with hut
      · cases hu; exact ⟨rfl, Nat.zero_le _⟩
      · exact h.same u c o hu
    · exact absurd (show (s.pc t).writing by rw [hpc]; trivial) (h.absent hf t)
    · exact ⟨(h.present f hf).1, .inr (.inl ⟨t, 0, Function.update_self .., fun i hi => absurd hi (by omega)⟩)⟩
  | .write c o =>
    obtain ⟨rfl, ho⟩ := h.same t c o hpc
    dsimp only
    split_ifs with hle
    · have hp : ∀ u, Function.update s.pc t Pc.load u = if u = t then .load else s.pc u := fun u => Function.update_apply ..
      refine ⟨fun u d q hu => ?_, fun hf u hu => ?_, fun f hf => ?_⟩
      · change Function.update s.pc t _ u = _ at hu
        rw [hp] at hu
        split_ifs at hu with hut
        exact h.same u d q hu
      · exact absurd (show (s.pc t).writing by rw [hpc]; trivial) (h.absent hf t)
      · obtain ⟨h1, h2⟩ := h.present f hf
        refine ⟨h1, ?_⟩
        rcases h2 with ⟨w, hw⟩ | ⟨w, q, hw, ha⟩ | ha
        · left
          refine ⟨w, ?_⟩
          show Function.update s.pc t _ w = _
          rw [hp, if_neg (by rintro rfl; rw [hw] at hpc; cases hpc)]
          exact hw
        · by_cases hwt : w = t
          · subst hwt
            rw [hpc] at hw
            cases hw
            exact .inr (.inr fun i hi => ha i (by omega))
          · refine .inr (.inl ⟨w, q, ?_, ha⟩)
            show Function.update s.pc t _ w = _
            rw [hp, if_neg hwt]
            exact hw
        · exact .inr (.inr ha)
    · obtain ⟨d, hd⟩ : ∃ d, d = (c.drop o).take n := ⟨_, rfl⟩
      rw [← hd]
      have hp : ∀ u, Function.update s.pc t (Pc.write c (o + d.length)) u = if u = t then .write c (o + d.length) else s.pc u := fun u => Function.update_apply ..
      have hlen : o + d.length ≤ c.length := by rw [hd]; exact piece_le ho
      refine ⟨fun u e q hu => ?_, fun hf u hu => ?_, fun f hf => ?_⟩
      · change Function.update s.pc t _ u = _ at hu
        rw [hp] at hu
        split_ifs at hu with hut
        · cases hu; exact ⟨rfl, hlen⟩
        · exact h.same u e q hu
      · have : s.file = none := Option.map_eq_none_iff.mp hf
        exact absurd (show (s.pc t).writing by rw [hpc]; trivial) (h.absent this t)
      · obtain ⟨g, hg, rfl⟩ := Option.map_eq_some_iff.mp hf
        obtain ⟨h1, h2⟩ := h.present g hg
        refine ⟨by rw [writeAt_length]; omega, ?_⟩
        rcases h2 with ⟨w, hw⟩ | ⟨w, q, hw, ha⟩ | ha
        · left
          refine ⟨w, ?_⟩
          show Function.update s.pc t _ w = _
          rw [hp, if_neg (by rintro rfl; rw [hw] at hpc; cases hpc)]
          exact hw
        · right; left
          by_cases hwt : w = t
          · subst hwt
            rw [hpc] at hw
            cases hw
            refine ⟨w, o + d.length, Function.update_self .., ?_⟩
            rw [hd]
            exact writeAt_extends ho ha
          · refine ⟨w, q, ?_, ?_⟩
            · show Function.update s.pc t _ w = _
              rw [hp, if_neg hwt]
              exact hw
            · rw [hd]
              exact writeAt_keeps (h.same w c q hw).2 ha
        · right; right
          rw [hd]
          exact writeAt_keeps le_rfl ha

theorem inv_run {W : World} {b : Bytes} (hb : ∀ t, W.body t = some b) (l : List (ℕ × ℕ)) : ∀ s, Inv b s → Inv b (run W l s) := by
  induction l with
  | nil => exact fun s h => h
  | cons a l ih => exact fun s h => ih _ (inv_step hb h a.1 a.2)

/-! ### A file that is there -/

/-- Whatever a process makes of a file. -/
def loaded (W : World) (f : Bytes) : Except Fault Picture :=
  match W.decode f with
  | none => .error .unreadable
  | some p => .ok p

/-- The file is there, and the processes in `P` have not got it open and will not. -/
structure Existing (W : World) (f : Bytes) (P : ℕ → Prop) (s : State) : Prop where
  file : s.file = some f
  pc : ∀ t, P t → s.pc t = .check ∨ s.pc t = .load ∨ s.pc t = .done (loaded W f)

theorem existing_step {W : World} {f : Bytes} {P : ℕ → Prop} {s : State} (h : Existing W f P s) {t : ℕ} (ht : P t) (n : ℕ) : Existing W f P (step W t n s) := by
  have upd : ∀ p, (p = .check ∨ p = .load ∨ p = .done (loaded W f)) → Existing W f P { s with pc := Function.update s.pc t p } := by
    intro p hp
    refine ⟨h.file, fun u hu => ?_⟩
    show Function.update s.pc t p u = _ ∨ Function.update s.pc t p u = _ ∨ Function.update s.pc t p u = _
    by_cases hut : u = t
    · rw [hut, Function.update_self]; exact hp
    · rw [Function.update_of_ne hut]; exact h.pc u hu
  unfold step
  rcases h.pc t ht with e | e | e
  · rw [e]
    dsimp only
    rw [h.file, if_neg (by simp)]
    have := upd .load (.inr (.inl rfl))
    rw [h.file] at this
    exact this
  · rw [e]
    dsimp only
    rw [h.file]
    have := upd (.done (loaded W f)) (.inr (.inr rfl))
    rw [h.file] at this
    exact this
  · rw [e]
    exact h

theorem existing_run {W : World} {f : Bytes} {P : ℕ → Prop} (l : List (ℕ × ℕ)) (hl : ∀ a ∈ l, P a.1) : ∀ s, Existing W f P s → Existing W f P (run W l s) := by
  induction l with
  | nil => exact fun s h => h
  | cons a l ih =>
    exact fun s h => ih (fun c hc => hl c (List.mem_cons_of_mem _ hc)) _ (existing_step h (hl a List.mem_cons_self) a.2)

/-! ### One process alone -/

/-- The states of a process that finds no file, is alone, and whose response holds `b`. -/
inductive Alone (W : World) (b : Bytes) (t : ℕ) : State → Prop
  | check {s} : s.pc t = .check → s.file = none → Alone W b t s
  | connect {s} : s.pc t = .connect → s.file = none → Alone W b t s
  | opening {s} : s.pc t = .opening → s.file = none → Alone W b t s
  | read {s} : s.pc t = .read → s.file = some [] → Alone W b t s
  | write {s} (o : ℕ) : o ≤ b.length → s.pc t = .write b o → s.file = some (b.take o) → Alone W b t s
  | load {s} : s.pc t = .load → s.file = some b → Alone W b t s
  | done {s} : s.pc t = .done (loaded W b) → s.file = some b → Alone W b t s

theorem writeAt_take {b : Bytes} {o n : ℕ} (ho : o ≤ b.length) : writeAt (b.take o) o ((b.drop o).take n) = b.take (o + ((b.drop o).take n).length) := by
  have hp := piece_le (n := n) ho
  refine List.ext_getElem? fun i => ?_
  by_cases hi : i < o + ((b.drop o).take n).length
  · rw [writeAt_extends ho (fun i hi => List.getElem?_take_of_lt hi) i hi, List.getElem?_take_of_lt hi]
  · have hl : (b.take o).length ≤ o := by rw [List.length_take]; omega
    rw [List.getElem?_eq_none (by rw [writeAt_length]; omega), List.getElem?_eq_none (by rw [List.length_take]; omega)]

theorem alone_step {W : World} {b : Bytes} {t : ℕ} (hc : W.connect t = true) (hb : W.body t = some b) {s : State} (h : Alone W b t s) (n : ℕ) :
    Alone W b t (step W t n s) := by
  unfold step
  cases h with
  | check e f => rw [e]; exact .connect (by show Function.update s.pc t _ t = _; rw [Function.update_self, if_pos f]) f
  | connect e f => rw [e]; exact .opening (by show Function.update s.pc t _ t = _; rw [Function.update_self, if_pos hc]) f
  | opening e f => rw [e]; exact .read (Function.update_self ..) rfl
  | read e f => rw [e]; exact .write 0 (Nat.zero_le _) (by show Function.update s.pc t _ t = _; rw [Function.update_self, hb]) f
  | write o ho e f =>
    rw [e]
    dsimp only
    split_ifs with hle
    · exact .load (Function.update_self ..) (by show s.file = _; rw [f, List.take_of_length_le hle])
    · exact .write (o + ((b.drop o).take n).length) (piece_le ho) (Function.update_self ..) (by
        show s.file.map _ = _
        rw [f, Option.map_some, writeAt_take ho])
  | load e f =>
    rw [e]
    dsimp only
    refine .done ?_ f
    show Function.update s.pc t _ t = _
    rw [Function.update_self, f]
    rfl
  | done e f => rw [e]; exact .done e f

theorem alone_run {W : World} {b : Bytes} {t : ℕ} (hc : W.connect t = true) (hb : W.body t = some b) (l : List ℕ) :
    ∀ s, Alone W b t s → Alone W b t (run W (l.map fun n => (t, n)) s) := by
  induction l with
  | nil => exact fun s h => h
  | cons n l ih => exact fun s h => ih _ (alone_step hc hb h n)

theorem step_other (W : World) (t n u : ℕ) (hu : u ≠ t) (s : State) : (step W t n s).pc u = s.pc u := by
  unfold step
  split
  all_goals try exact Function.update_of_ne hu ..
  · split_ifs <;> exact Function.update_of_ne hu ..
  · rfl

theorem run_other (W : World) (u : ℕ) (l : List (ℕ × ℕ)) (hl : ∀ a ∈ l, a.1 ≠ u) : ∀ s, (run W l s).pc u = s.pc u := by
  induction l with
  | nil => exact fun s => rfl
  | cons a l ih =>
    intro s
    show (run W l (step W a.1 a.2 s)).pc u = _
    rw [ih (fun c hc => hl c (List.mem_cons_of_mem _ hc)), step_other _ _ _ _ (Ne.symm (hl a List.mem_cons_self))]

theorem run_append (W : World) (l m : List (ℕ × ℕ)) : ∀ s, run W (l ++ m) s = run W m (run W l s) := by
  induction l with
  | nil => exact fun s => rfl
  | cons a l ih => exact fun s => ih _

/-! ### Interpolation -/

theorem source_bounds {n m i : ℕ} (hn : 0 < n) (hi : i < m) : 0 ≤ source n m i ∧ source n m i < n := by
  have hm : (0 : ℝ) < m := by exact_mod_cast (by omega : 0 < m)
  have hn' : (0 : ℝ) < n := by exact_mod_cast hn
  have hi' : (i : ℝ) + 1 ≤ m := by exact_mod_cast hi
  refine ⟨le_max_left _ _, max_lt hn' ?_⟩
  have : ((i : ℝ) + 1 / 2) * n / m ≤ n := by
    rw [div_le_iff₀ hm]
    nlinarith
  linarith

/-- The interpolation mixes two values with weights between 0 and 1. -/
theorem lerp_mix {n m i : ℕ} (hn : 0 < n) (hi : i < m) (f : ℕ → ℝ) :
    ∃ k k1, ∃ c : ℝ, k < n ∧ k1 < n ∧ 0 ≤ c ∧ c ≤ 1 ∧ lerp n m f i = (1 - c) * f k + c * f k1 := by
  obtain ⟨h0, h1⟩ := source_bounds hn hi
  have hk : ⌊source n m i⌋₊ < n := (Nat.floor_lt h0).mpr h1
  refine ⟨_, _, source n m i - ⌊source n m i⌋₊, hk, ?_, by linarith [Nat.floor_le h0], by linarith [Nat.lt_floor_add_one (source n m i)], rfl⟩
  split_ifs <;> omega

theorem lerp_between {n m i : ℕ} (hn : 0 < n) (hi : i < m) {f : ℕ → ℝ} {lo hi' : ℝ} (h : ∀ k < n, lo ≤ f k ∧ f k ≤ hi') : lo ≤ lerp n m f i ∧ lerp n m f i ≤ hi' := by
  obtain ⟨k, k1, c, h1, h2, h3, h4, e⟩ := lerp_mix hn hi f
  rw [e]
  obtain ⟨a1, a2⟩ := h k h1
  obtain ⟨b1, b2⟩ := h k1 h2
  constructor <;> nlinarith

theorem lerp_same {n i : ℕ} (hi : i < n) (f : ℕ → ℝ) : lerp n n f i = f i := by
  have hn : (n : ℝ) ≠ 0 := by exact_mod_cast (by omega : n ≠ 0)
  have e : source n n i = i := by
    unfold source
    rw [mul_div_assoc, div_self hn, mul_one, add_sub_cancel_right, max_eq_right (Nat.cast_nonneg i)]
  unfold lerp
  rw [e, Nat.floor_natCast]
  simp

end Verif.Elevation
