import Verif.Spec.Registry
import Mathlib.Data.List.Induction
import Mathlib.Data.Nat.Notation
import Mathlib.Data.Nat.Basic
/-!
Property theorems C56: the process-group registry over arbitrary histories of `init`, `finalize` and outside events.
-/
namespace Verif.Props
open Verif.Reg
open Verif.Spec.Reg (inForce polar azimuth destroyed)
variable {G W : Type}

/-- `destroy_process_group` never raises. -/
def NeverRaises (B : Backend G W) : Prop := ∀ w g, (B.destroy w g).2 = none

theorem dropPolar_ok (B : Backend G W) (hB : NeverRaises B) (s : Globals G) (w : W) :
    ∃ w', dropPolar B s w = ({ s with polar := none }, w', none) := by
  unfold dropPolar
  obtain ⟨p, a, i⟩ := s
  cases p with
  | none => exact ⟨w, rfl⟩
  | some g =>
    have h := hB w g
    rcases hd : B.destroy w g with ⟨w', e⟩
    rw [hd] at h
    simp only at h
    subst h
    exact ⟨w', by simp [hd]⟩

theorem dropAzimuth_ok (B : Backend G W) (hB : NeverRaises B) (s : Globals G) (w : W) :
    ∃ w', dropAzimuth B s w = ({ s with azimuth := none }, w', none) := by
  unfold dropAzimuth
  obtain ⟨p, a, i⟩ := s
  cases a with
  | none => exact ⟨w, rfl⟩
  | some g =>
    have h := hB w g
    rcases hd : B.destroy w g with ⟨w', e⟩
    rw [hd] at h
    simp only at h
    subst h
    exact ⟨w', by simp [hd]⟩

theorem run_snoc (B : Backend G W) (w : W) (h : List (Op G W)) (o : Op G W) : run B w (h ++ [o]) = step B (run B w h) o := by
  simp [run, List.foldl_append]

/-- In every reachable state, also after `finalize` calls that raised, a registered group implies that the registry is
initialised. -/
theorem C56_registered_initialized (B : Backend G W) (w : W) (h : List (Op G W)) :
    (polarGroup (run B w h).1).isSome ∨ (azimuthGroup (run B w h).1).isSome → isInitialized (run B w h).1 = true := by
  induction h using List.reverseRecOn with
  | nil => simp [run, start, polarGroup, azimuthGroup]
  | append_singleton h o ih =>
    rw [run_snoc]
    generalize run B w h = st at ih ⊢
    obtain ⟨⟨p, a, i⟩, w⟩ := st
    cases o with
    | init p a => simp [step, init, isInitialized]
    | other f => exact ih
    | finalize =>
      simp only [polarGroup, azimuthGroup, isInitialized, step] at ih ⊢
      unfold finalize dropPolar dropAzimuth
      cases i with
      | false => simp_all
      | true =>
        rcases p with _ | p
        · rcases a with _ | a
          · simp
          · rcases hd : B.destroy w a with ⟨w', _ | e⟩ <;> simp [hd]
        · rcases hp : B.destroy w p with ⟨w', _ | e⟩
          · rcases a with _ | a
            · simp [hp]
            · rcases hd : B.destroy w' a with ⟨w'', _ | e⟩ <;> simp [hp, hd]
          · simp [hp]

/-- `finalize`, when it returns, clears both groups and the flag, in every reachable state. -/
theorem C56_finalize (B : Backend G W) (w : W) (h : List (Op G W)) (s' : Globals G) (w' : W)
    (hf : finalize B (run B w h).1 (run B w h).2 = (s', w', none)) :
    polarGroup s' = none ∧ azimuthGroup s' = none ∧ isInitialized s' = false := by
  have inv := C56_registered_initialized B w h
  generalize run B w h = st at inv hf
  obtain ⟨⟨p, a, i⟩, w⟩ := st
  simp only [polarGroup, azimuthGroup, isInitialized] at inv ⊢
  cases i with
  | false =>
    have hp : p = none := by cases p <;> simp_all
    have ha : a = none := by cases a <;> simp_all
    subst hp ha
    simp only [finalize, Bool.false_eq_true, if_false, Prod.mk.injEq] at hf
    rw [← hf.1]
    exact ⟨rfl, rfl, rfl⟩
  | true =>
    unfold finalize dropPolar dropAzimuth at hf
    rcases p with _ | p
    · rcases a with _ | a
      · simp at hf
        rw [← hf.1]; simp
      · rcases hd : B.destroy w a with ⟨w', _ | e⟩ <;> simp [hd] at hf
        rw [← hf.1]; simp
    · rcases hp : B.destroy w p with ⟨w1, _ | e⟩
      · rcases a with _ | a
        · simp [hp] at hf
          rw [← hf.1]; simp
        · rcases hd : B.destroy w1 a with ⟨w2, _ | e⟩ <;> simp [hp, hd] at hf
          rw [← hf.1]; simp
      · simp [hp] at hf

/-- If nothing raises, the registry reports at every point exactly the groups of the `init` in force, and is initialised exactly
when there is one: a second `init` replaces the first, a `finalize` ends it, other events do not matter. -/
theorem C56_reports_init_in_force (B : Backend G W) (hB : NeverRaises B) (w : W) (h : List (Op G W)) :
    polarGroup (run B w h).1 = polar h.reverse ∧ azimuthGroup (run B w h).1 = azimuth h.reverse ∧
      isInitialized (run B w h).1 = (inForce h.reverse).isSome := by
  induction h using List.reverseRecOn with
  | nil => simp [run, start, polarGroup, azimuthGroup, isInitialized, polar, azimuth, inForce]
  | append_singleton h o ih =>
    have inv := C56_finalize B w h
    rw [run_snoc, List.reverse_append]
    generalize run B w h = st at ih inv ⊢
    obtain ⟨s, w⟩ := st
    cases o with
    | init p a => simp [step, init, polarGroup, azimuthGroup, isInitialized, polar, azimuth, inForce]
    | other f => simpa [step, polar, azimuth, inForce] using ih
    | finalize =>
      have hok : ∃ s' w', finalize B s w = (s', w', none) := by
        unfold finalize
        split
        · obtain ⟨w1, h1⟩ := dropPolar_ok B hB s w
          obtain ⟨w2, h2⟩ := dropAzimuth_ok B hB { s with polar := none } w1
          rw [h1]; simp only; rw [h2]
          exact ⟨_, _, rfl⟩
        · exact ⟨_, _, rfl⟩
      obtain ⟨s', w', hf⟩ := hok
      have := inv s' w' hf
      simpa [step, hf, polar, azimuth, inForce] using this

/-- Sizes and ranks: those of the registered group, or 1 and 0. -/
theorem C56_sizes_ranks (B : Backend G W) (hB : NeverRaises B) (w : W) (h : List (Op G W)) :
    let st := run B w h
    (polarGroupSize B st.1 st.2 = match polar h.reverse with | none => .ok 1 | some g => B.size st.2 g) ∧
    (azimuthGroupSize B st.1 st.2 = match azimuth h.reverse with | none => .ok 1 | some g => B.size st.2 g) ∧
    (polarGroupRank B st.1 st.2 = match polar h.reverse with | none => .ok 0 | some g => B.rank st.2 g) ∧
    (azimuthGroupRank B st.1 st.2 = match azimuth h.reverse with | none => .ok 0 | some g => B.rank st.2 g) ∧
    (isDistributedPolar st.1 = (polar h.reverse).isSome) ∧ (isDistributedAzimuth st.1 = (azimuth h.reverse).isSome) := by
  obtain ⟨h1, h2, -⟩ := C56_reports_init_in_force B hB w h
  simp only [polarGroup, azimuthGroup] at h1 h2
  simp only [polarGroupSize, azimuthGroupSize, polarGroupRank, azimuthGroupRank, isDistributedPolar, isDistributedAzimuth, h1, h2]
  refine ⟨?_, ?_, ?_, ?_, trivial, trivial⟩
  · cases polar h.reverse <;> rfl
  · cases azimuth h.reverse <;> rfl
  · cases polar h.reverse <;> rfl
  · cases azimuth h.reverse <;> rfl

/-- A `finalize` that raised leaves the registry initialised. Either destroying the polar group failed and nothing changed, or
destroying the azimuth group failed, the polar group is gone and the azimuth group is still registered (so a later `finalize` tries
only that one again). -/
theorem C56_finalize_raises (B : Backend G W) (s s' : Globals G) (w w' : W) (e : PyErr)
    (hf : finalize B s w = (s', w', some e)) :
    isInitialized s' = true ∧
      ((s' = s ∧ ∃ g, polarGroup s = some g ∧ B.destroy w g = (w', some e)) ∨
       (polarGroup s' = none ∧ azimuthGroup s' = azimuthGroup s ∧
          ∃ g w1, azimuthGroup s = some g ∧ B.destroy w1 g = (w', some e))) := by
  obtain ⟨p, a, i⟩ := s
  simp only [polarGroup, azimuthGroup, isInitialized] at *
  cases i with
  | false => simp [finalize] at hf
  | true =>
    unfold finalize dropPolar dropAzimuth at hf
    rcases p with _ | p
    · rcases a with _ | a
      · simp at hf
      · rcases hd : B.destroy w a with ⟨w1, _ | e1⟩ <;> simp [hd] at hf
        obtain ⟨rfl, rfl, rfl⟩ := hf
        exact ⟨rfl, Or.inr ⟨rfl, rfl, a, w, rfl, hd⟩⟩
    · rcases hp : B.destroy w p with ⟨w1, _ | e1⟩
      · rcases a with _ | a
        · simp [hp] at hf
        · rcases hd : B.destroy w1 a with ⟨w2, _ | e2⟩ <;> simp [hp, hd] at hf
          obtain ⟨rfl, rfl, rfl⟩ := hf
          exact ⟨rfl, Or.inr ⟨rfl, rfl, a, w1, rfl, hd⟩⟩
      · simp [hp] at hf
        obtain ⟨rfl, rfl, rfl⟩ := hf
        exact ⟨rfl, Or.inl ⟨rfl, p, rfl, hp⟩⟩

/-- A `torch.distributed` that only writes down the groups it is told to destroy. -/
def recorder (G : Type) : Backend G (List G) := ⟨fun w g => (w ++ [g], none), fun _ _ => .ok 1, fun _ _ => .ok 0⟩

theorem recorder_finalize (s : Globals G) (hs : s.isInit = false → s.polar = none ∧ s.azimuth = none) (w : List G) :
    (finalize (recorder G) s w).2.1 = w ++ (s.polar.toList ++ s.azimuth.toList) := by
  obtain ⟨p, a, i⟩ := s
  cases i with
  | false =>
    obtain ⟨hp, ha⟩ := hs rfl
    simp only at hp ha
    subst hp ha
    simp [finalize]
  | true => cases p <;> cases a <;> simp [finalize, dropPolar, dropAzimuth, recorder]

/-- Exactly the groups of the `init` in force are destroyed, once, by each `finalize`, and nothing else ever is: the groups of an
`init` that was followed by another `init` are never destroyed. -/
theorem C56_destroyed (h : List (Op G (List G))) (hother : ∀ f, Op.other f ∈ h → f = id) :
    (run (recorder G) [] h).2 = destroyed [] h := by
  have key : ∀ (rest past : List (Op G (List G))), (∀ f, Op.other f ∈ rest → f = id) →
      (run (recorder G) [] (past.reverse ++ rest)).2 = (run (recorder G) [] past.reverse).2 ++ destroyed past rest := by
    intro rest
    induction rest with
    | nil => intro past _; simp [destroyed]
    | cons o rest ih =>
      intro past ho
      have hrest := ih (o :: past) (fun f hf => ho f (List.mem_cons_of_mem _ hf))
      rw [List.reverse_cons, List.append_assoc, List.singleton_append] at hrest
      rw [hrest, run_snoc]
      have hB : NeverRaises (recorder G) := fun _ _ => rfl
      have hrep := C56_reports_init_in_force (recorder G) hB [] past.reverse
      have hinv := C56_registered_initialized (recorder G) [] past.reverse
      rw [List.reverse_reverse] at hrep
      generalize run (recorder G) [] past.reverse = st at hrep hinv ⊢
      cases o with
      | init p a => simp [step, destroyed]
      | other f => rw [ho f (List.mem_cons_self ..)]; simp [step, destroyed]
      | finalize =>
        simp only [step, destroyed]
        rw [recorder_finalize]
        · simp only [polarGroup, azimuthGroup] at hrep
          rw [hrep.1, hrep.2.1]
          simp
        · intro hi
          simp only [polarGroup, azimuthGroup, isInitialized] at hinv
          constructor
          · cases hc : st.1.polar <;> simp_all
          · cases hc : st.1.azimuth <;> simp_all
  have := key h [] hother
  rw [List.reverse_nil, List.nil_append] at this
  rw [this]
  rfl

/-- The same group registered for both directions: when destroying a group a second time raises (as `torch.distributed` does),
`finalize` raises after having destroyed it, and the registry stays initialised with a dead azimuth group. -/
theorem C56_same_group_twice (B : Backend G W) (g : G) (w w1 w2 : W) (e : PyErr) (s : Globals G)
    (h1 : B.destroy w g = (w1, none)) (h2 : B.destroy w1 g = (w2, some e)) :
    finalize B (init (some g) (some g) s) w = (⟨none, some g, true⟩, w2, some e) := by
  simp [finalize, init, dropPolar, dropAzimuth, h1, h2]

/-- The debug switch: the environment decides until it is set, then the last value set does. -/
theorem C56_debug (l : List Bool) (env : Option String) :
    (l.foldl Config.setDebug Config.start).debug env =
      match l.getLast? with | none => (env == some "1") | some b => b := by
  induction l using List.reverseRecOn with
  | nil => cases env <;> simp [Config.start, Config.debug]
  | append_singleton l b _ => simp [List.foldl_append, Config.setDebug, Config.debug]

/-! Concrete cases. -/

/-- A `torch.distributed` with a list of live groups, where destroying a dead group raises. -/
def liveBackend : Backend ℕ (List ℕ) :=
  ⟨fun w g => if g ∈ w then (w.erase g, none) else (w, some .valueError), fun _ g => .ok g, fun _ _ => .ok 0⟩

example : NeverRaises (recorder ℕ) := fun _ _ => rfl
example : polar (W := Unit) [Op.init (some 3) none, .finalize, .init (some 1) (some 2)] = some 3 := rfl
example : (run (recorder ℕ) [] [.init (some 1) (some 2), .init (some 3) (some 4), .finalize, .finalize]).2 = [3, 4] := rfl
example : ∃ s' w', finalize liveBackend (run liveBackend [1, 2] [.init (some 1) (some 2)]).1
    (run liveBackend [1, 2] [.init (some 1) (some 2)]).2 = (s', w', none) := ⟨_, _, rfl⟩
example : liveBackend.destroy [7] 7 = ([], none) ∧ liveBackend.destroy [] 7 = ([], some .valueError) := by decide
example : ∃ s' w' e, finalize liveBackend ⟨some 5, none, true⟩ [1] = (s', w', some e) := ⟨_, _, _, rfl⟩

end Verif.Props
