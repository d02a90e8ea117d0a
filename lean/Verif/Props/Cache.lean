import Mathlib.Data.List.Nodup
import Mathlib.Tactic.Ring
import Verif.Spec.Cache
/-!
Property theorems C25: the copying LRU cache is transparent.
-/
namespace Verif.Props
open Verif Verif.Cache Verif.Spec

variable {V : Type}

/-- A cache entry stores a result the client cannot reach, equal to what the function gives for the entry's arguments; the
argument objects are held by the client and flagged as used. -/
def EntryOk (cfg : Cfg) (f : List (Seen V) → Except PyErr V) (heap : Nat → Option V) (next : Nat) (held : List Nat)
    (p : Plain V) (e : Key × Nat) : Prop :=
  e.2 < next ∧ e.2 ∉ held ∧ ∃ args vals v, e.1 = args.map (keyOf cfg.typed) ∧
    seeAll heap args = some vals ∧ f vals = .ok v ∧ heap e.2 = some v ∧
    ∀ a, Arg.obj a ∈ args → ∃ (i : Nat) (x : V × Bool), held[i]? = some a ∧ p[i]? = some x ∧ x.2 = true

/-- Simulation relation between the cached and the plain client. -/
structure Sim (cfg : Cfg) (f : List (Seen V) → Except PyErr V) (s : State V) (p : Plain V) : Prop where
  len : s.held.length = p.length
  content : ∀ (i a : Nat) (e : V × Bool), s.held[i]? = some a → p[i]? = some e → s.heap a = some e.1
  nodup : s.held.Nodup
  held_lt : ∀ a ∈ s.held, a < s.next
  entry : ∀ e ∈ s.cache, EntryOk cfg f s.heap s.next s.held p e

theorem mapM_congr {α β : Type} (g h : α → Option β) (l : List α) (H : ∀ a ∈ l, g a = h a) : l.mapM g = l.mapM h := by
  induction l with
  | nil => rfl
  | cons a l ih =>
    simp only [List.mapM_cons]
    rw [H a (by simp), ih fun b hb => H b (by simp [hb])]

/-- The content of arguments only depends on the heap at their addresses. -/
theorem seeAll_congr (h1 h2 : Nat → Option V) (args : List Arg) (H : ∀ a, Arg.obj a ∈ args → h1 a = h2 a) :
    seeAll h1 args = seeAll h2 args := by
  refine mapM_congr _ _ _ fun x hx => ?_
  cases x with
  | num ty v => rfl
  | obj a => simp only [see, H a hx]

theorem mapM_some_forall {α β : Type} (g : α → Option β) : ∀ (l : List α) (r : List β), l.mapM g = some r →
    List.Forall₂ (fun a b => g a = some b) l r := by
  intro l
  induction l with
  | nil => intro r h; simp at h; subst h; exact .nil
  | cons a l ih =>
    intro r h
    simp only [List.mapM_cons, Option.bind_eq_bind, Option.pure_def] at h
    obtain ⟨b, hb, h⟩ := Option.bind_eq_some_iff.1 h
    obtain ⟨r', hr', h⟩ := Option.bind_eq_some_iff.1 h
    cases h
    exact .cons hb (ih r' hr')

theorem mapM_of_forall {α β : Type} (g : α → Option β) (l : List α) (r : List β)
    (h : List.Forall₂ (fun a b => g a = some b) l r) : l.mapM g = some r := by
  induction h with
  | nil => rfl
  | cons h1 _ ih => simp only [List.mapM_cons, h1, ih]; rfl

/-- Two argument lists with the same key lead to the same result. -/
theorem same_key_same_result (typed : Bool) (f : List (Seen V) → Except PyErr V) (hf : RespectsKeys typed f)
    (heap : Nat → Option V) (as bs : List Arg) (h : as.map (keyOf typed) = bs.map (keyOf typed)) (xs ys : List (Seen V))
    (hx : seeAll heap as = some xs) (hy : seeAll heap bs = some ys) : f xs = f ys := by
  rcases hf with ht | hf
  · subst ht
    have : as = bs := by
      refine (List.map_injective_iff.2 ?_) h
      intro a b hab
      cases a <;> cases b <;> simp_all [keyOf]
    subst this
    rw [hx] at hy; cases hy; rfl
  · refine hf xs ys ?_
    have h1 := mapM_some_forall _ _ _ hx
    have h2 := mapM_some_forall _ _ _ hy
    clear hx hy
    induction h1 generalizing bs ys with
    | nil =>
      cases bs with
      | nil => cases h2; exact .nil
      | cons b bs => simp at h
    | cons ha _ ih =>
      cases bs with
      | nil => simp at h
      | cons b bs =>
        cases h2 with
        | cons hb h2 =>
          simp only [List.map_cons, List.cons.injEq] at h
          refine .cons ?_ (ih bs h.2 _ h2)
          next a x _ _ _ y _ =>
          cases a with
          | num ty v =>
            cases b with
            | num ty' v' =>
              simp only [see, Option.some.injEq] at ha hb
              subst ha; subst hb
              have := h.1
              cases typed <;> simp [keyOf] at this <;> simp [sameUpToType, this]
            | obj a' =>
              have := h.1
              cases typed <;> simp [keyOf] at this
          | obj a =>
            cases b with
            | num ty' v' =>
              have := h.1
              cases typed <;> simp [keyOf] at this
            | obj a' =>
              have := h.1
              simp [keyOf] at this
              subst this
              simp only [see, Option.map_eq_some_iff] at ha hb
              obtain ⟨u, hu, rfl⟩ := ha
              obtain ⟨w, hw, rfl⟩ := hb
              rw [hu] at hw; cases hw
              rfl

variable {cfg : Cfg} {f : List (Seen V) → Except PyErr V} {s : State V} {p : Plain V}

theorem resolve_sim (h : Sim cfg f s p) (args : List CArg) :
    (resolve s args = none ∧ plainArgs p args = none) ∨
    ∃ as vals, resolve s args = some as ∧ plainArgs p args = some vals ∧ seeAll s.heap as = some vals ∧
      ∀ a, Arg.obj a ∈ as → ∃ i, CArg.held i ∈ args ∧ s.held[i]? = some a := by
  induction args with
  | nil => exact Or.inr ⟨[], [], rfl, rfl, rfl, by simp⟩
  | cons x args ih =>
    simp only [resolve, plainArgs, List.mapM_cons] at ih ⊢
    cases x with
    | num ty v =>
      rcases ih with ⟨h1, h2⟩ | ⟨as, vals, h1, h2, h3, h4⟩
      · left; simp only [h1, h2]; exact ⟨rfl, rfl⟩
      · right
        refine ⟨.num ty v :: as, .num ty v :: vals, ?_, ?_, ?_, ?_⟩
        · simp only [h1]; rfl
        · simp only [h2]; rfl
        · simp only [seeAll, List.mapM_cons] at h3 ⊢; rw [h3]; rfl
        · intro a ha
          obtain ⟨i, hi, hi'⟩ := h4 a (by simpa using ha)
          exact ⟨i, by simp [hi], hi'⟩
    | held i =>
      by_cases hi : i < s.held.length
      · have hs : s.held[i]? = some s.held[i] := List.getElem?_eq_getElem hi
        have hi2 : i < p.length := by rw [← h.len]; exact hi
        have hp : p[i]? = some p[i] := List.getElem?_eq_getElem hi2
        have hc := h.content i _ _ hs hp
        rcases ih with ⟨h1, h2⟩ | ⟨as, vals, h1, h2, h3, h4⟩
        · left; simp only [h1, h2, hs, hp]; exact ⟨rfl, rfl⟩
        · right
          refine ⟨.obj s.held[i] :: as, .obj p[i].1 :: vals, ?_, ?_, ?_, ?_⟩
          · simp only [h1, hs]; rfl
          · simp only [h2, hp]; rfl
          · simp only [seeAll, List.mapM_cons] at h3 ⊢; rw [h3]; simp only [see, hc]; rfl
          · intro a ha
            rcases List.mem_cons.1 ha with h' | h'
            · cases h'; exact ⟨i, by simp, hs⟩
            · obtain ⟨j, hj, hj'⟩ := h4 a h'
              exact ⟨j, by simp [hj], hj'⟩
      · left
        have hs : s.held[i]? = none := List.getElem?_eq_none (by omega)
        have hp : p[i]? = none := List.getElem?_eq_none (by rw [← h.len]; omega)
        simp only [hs, hp]; exact ⟨rfl, rfl⟩

/-- Entries survive allocation of fresh objects. -/
theorem entry_alloc (v : V) (e : Key × Nat) (hheld : ∀ a ∈ s.held, a < s.next)
    (h : EntryOk cfg f s.heap s.next s.held p e) : EntryOk cfg f (s.alloc v).1.heap (s.alloc v).1.next s.held p e := by
  obtain ⟨h1, h2, args, vals, w, h3, h4, h5, h6, h7⟩ := h
  refine ⟨by simp only [State.alloc]; omega, h2, args, vals, w, h3, ?_, h5, ?_, h7⟩
  · rw [← h4]
    refine seeAll_congr _ _ _ fun a ha => ?_
    obtain ⟨i, x, hi, -⟩ := h7 a ha
    have := hheld a (List.mem_of_getElem? hi)
    simp only [State.alloc]; rw [if_neg (by omega)]
  · simp only [State.alloc]; rw [if_neg (by omega)]; exact h6

theorem sim_alloc (h : Sim cfg f s p) (v : V) : Sim cfg f (s.alloc v).1 p where
  len := h.len
  content := by
    intro i a e hi he
    have := h.held_lt a (List.mem_of_getElem? hi)
    simp only [State.alloc]; rw [if_neg (by omega)]; exact h.content i a e hi he
  nodup := h.nodup
  held_lt := by intro a ha; have := h.held_lt a ha; simp only [State.alloc]; omega
  entry := fun e he => entry_alloc v e h.held_lt (h.entry e he)

/-- The client receives a fresh object. -/
theorem sim_push (h : Sim cfg f s p) (v : V) :
    Sim cfg f { (s.alloc v).1 with held := s.next :: s.held } ((v, false) :: p) where
  len := by simp [h.len]
  content := by
    intro i a e hi he
    cases i with
    | zero =>
      simp at hi he
      subst hi; subst he
      simp [State.alloc]
    | succ i =>
      simp at hi he
      exact (sim_alloc h v).content i a e hi he
  nodup := by
    refine List.nodup_cons.2 ⟨fun hm => ?_, h.nodup⟩
    have := h.held_lt _ hm; omega
  held_lt := by
    intro a ha
    rcases List.mem_cons.1 ha with h' | h'
    · subst h'; simp [State.alloc]
    · have := h.held_lt a h'; simp only [State.alloc]; omega
  entry := by
    intro e he
    obtain ⟨h1, h2, args, vals, w, h3, h4, h5, h6, h7⟩ := (sim_alloc h v).entry e he
    refine ⟨h1, ?_, args, vals, w, h3, h4, h5, h6, ?_⟩
    · intro hm
      rcases List.mem_cons.1 hm with h' | h'
      · have := (h.entry e he).1; omega
      · exact h2 h'
    · intro a ha
      obtain ⟨i, x, hi, hx, hf⟩ := h7 a ha
      exact ⟨i + 1, x, by simpa [State.alloc] using hi, by simpa using hx, hf⟩

theorem sim_mark (h : Sim cfg f s p) (args : List CArg) : Sim cfg f s (markUsed p args) where
  len := by simp [markUsed, h.len]
  content := by
    intro i a e hi he
    simp only [markUsed, List.getElem?_mapIdx, Option.map_eq_some_iff] at he
    obtain ⟨x, hx, rfl⟩ := he
    exact h.content i a x hi hx
  nodup := h.nodup
  held_lt := h.held_lt
  entry := by
    intro e he
    obtain ⟨h1, h2, as, vals, w, h3, h4, h5, h6, h7⟩ := h.entry e he
    refine ⟨h1, h2, as, vals, w, h3, h4, h5, h6, fun a ha => ?_⟩
    obtain ⟨i, x, hi, hx, hf⟩ := h7 a ha
    exact ⟨i, (x.1, x.2 || decide (CArg.held i ∈ args)), hi, by simp [markUsed, hx], by simp [hf]⟩

theorem sim_cache (h : Sim cfg f s p) (c : List (Key × Nat))
    (hc : ∀ e ∈ c, EntryOk cfg f s.heap s.next s.held p e) (n : Nat) : Sim cfg f { s with cache := c, evals := n } p :=
  ⟨h.len, h.content, h.nodup, h.held_lt, hc⟩

theorem mem_trim (m : Option Nat) (c : List (Key × Nat)) (e : Key × Nat) (h : e ∈ trim m c) : e ∈ c := by
  cases m with
  | none => exact h
  | some n => exact List.mem_of_mem_take h

/-- The inner cached call agrees with the function and preserves the simulation. -/
theorem cachedCall_sim (hf : RespectsKeys cfg.typed f) (h : Sim cfg f s p) (args : List CArg) (as : List Arg)
    (vals : List (Seen V)) (ha : seeAll s.heap as = some vals)
    (hused : ∀ a, Arg.obj a ∈ as → ∃ i, CArg.held i ∈ args ∧ s.held[i]? = some a) :
    let r := cachedCall cfg f s as
    Sim cfg f r.1 (markUsed p args) ∧ r.1.held = s.held ∧
      match f vals with
      | .error e => r.2 = .error e
      | .ok v => ∃ a, r.2 = .ok a ∧ r.1.heap a = some v := by
  intro r
  have hm := sim_mark h args
  cases hfind : s.cache.find? (fun e => e.1 = as.map (keyOf cfg.typed)) with
  | some e =>
    have hr : r = ({ s with cache := e :: s.cache.eraseP (fun e => e.1 = as.map (keyOf cfg.typed)) }, .ok e.2) := by
      simp only [r, cachedCall, hfind]
    have hmem := List.mem_of_find?_eq_some hfind
    have hkey : e.1 = as.map (keyOf cfg.typed) := by simpa using List.find?_some hfind
    rw [hr]
    refine ⟨sim_cache hm _ ?_ _, rfl, ?_⟩
    · intro e' he'
      rcases List.mem_cons.1 he' with h' | h'
      · subst h'; exact hm.entry _ hmem
      · exact hm.entry _ (List.mem_of_mem_eraseP h')
    · obtain ⟨-, -, as', vals', w, h3, h4, h5, h6, -⟩ := h.entry e hmem
      have : f vals' = f vals := same_key_same_result cfg.typed f hf s.heap as' as (by rw [← h3, hkey]) _ _ h4 ha
      rw [← this, h5]
      exact ⟨e.2, rfl, h6⟩
  | none =>
    cases hv : f vals with
    | error e =>
      have hr : r = ({ s with evals := s.evals + 1 }, .error e) := by
        simp only [r, cachedCall, hfind, ha, hv]
      rw [hr]
      exact ⟨sim_cache hm _ hm.entry _, rfl, rfl⟩
    | ok v =>
      have hr : r = (({ (s.alloc v).1 with
          cache := trim cfg.maxsize ((as.map (keyOf cfg.typed), s.next) :: s.cache), evals := s.evals + 1 } : State V),
          .ok s.next) := by
        simp only [r, cachedCall, hfind, ha, hv]; rfl
      rw [hr]
      have hm2 := sim_alloc hm v
      refine ⟨sim_cache hm2 _ ?_ _, rfl, s.next, rfl, by simp [State.alloc]⟩
      intro e he
      rcases List.mem_cons.1 (mem_trim _ _ _ he) with h' | h'
      · subst h'
        refine ⟨by simp [State.alloc], ?_, as, vals, v, rfl, ?_, hv, by simp [State.alloc], ?_⟩
        · intro hmem
          have := h.held_lt _ hmem
          simp at this
        · rw [← ha]
          refine seeAll_congr _ _ _ fun a haa => ?_
          obtain ⟨i, -, hi⟩ := hused a haa
          have := h.held_lt a (List.mem_of_getElem? hi)
          simp only [State.alloc]; rw [if_neg (by omega)]
        · intro a haa
          obtain ⟨i, hi1, hi⟩ := hused a haa
          have hlt : i < p.length := by
            rw [← h.len]; exact (List.getElem?_eq_some_iff.1 hi).1
          exact ⟨i, (p[i].1, p[i].2 || decide (CArg.held i ∈ args)), hi,
            by simp [markUsed, List.getElem?_eq_getElem hlt], by simp [hi1]⟩
      · exact hm2.entry e h'

/-- One client operation against the copying cache. -/
theorem step_sim (hc : cfg.copy = true) (hf : RespectsKeys cfg.typed f) (h : Sim cfg f s p) (o : Op V)
    (ho : match o with
      | .mutate i _ => ∀ e, p[i]? = some e → e.2 = false
      | _ => True) :
    (step cfg f s o).2 = (plainStep f p o).2 ∧ Sim cfg f (step cfg f s o).1 (plainStep f p o).1 := by
  cases o with
  | new v => exact ⟨rfl, sim_push h v⟩
  | mutate i v =>
    by_cases hi : i < s.held.length
    · have hs : s.held[i]? = some s.held[i] := List.getElem?_eq_getElem hi
      have hi2 : i < p.length := by rw [← h.len]; exact hi
      have hp : p[i]? = some p[i] := List.getElem?_eq_getElem hi2
      have hflag := ho p[i] hp
      have hst : step cfg f s (.mutate i v) = ({ s with heap := fun b => if b = s.held[i] then some v else s.heap b }, none) := by
        simp only [step, hs]
      rw [hst]
      refine ⟨rfl, ?_⟩
      simp only [plainStep]
      refine ⟨by simp [h.len], ?_, h.nodup, h.held_lt, ?_⟩
      · intro j a e hj he
        simp only at hj ⊢
        rw [List.getElem?_modify] at he
        by_cases hij : i = j
        · subst hij
          rw [hs] at hj; cases hj
          rw [hp] at he
          simp at he
          subst he
          simp
        · have hne : a ≠ s.held[i] := by
            intro hae
            have hj' := List.getElem?_eq_some_iff.1 hj
            obtain ⟨hjl, hje⟩ := hj'
            exact hij ((List.Nodup.getElem_inj_iff h.nodup).1 (by rw [hje, hae]))
          rw [if_neg hne]
          simp [hij] at he
          exact h.content j a e hj he
      · intro e he
        obtain ⟨h1, h2, args, vals, w, h3, h4, h5, h6, h7⟩ := h.entry e he
        refine ⟨h1, h2, args, vals, w, h3, ?_, h5, ?_, ?_⟩
        · rw [← h4]
          refine seeAll_congr _ _ _ fun a ha => ?_
          obtain ⟨j, x, hj, hx, hxf⟩ := h7 a ha
          dsimp only
          rw [if_neg]
          intro hae
          obtain ⟨hjl, hje⟩ := List.getElem?_eq_some_iff.1 hj
          have hij : i = j := ((List.Nodup.getElem_inj_iff h.nodup).1 (by rw [hje, hae]))
          subst hij
          rw [hp] at hx; cases hx
          rw [hflag] at hxf; cases hxf
        · have : e.2 ≠ s.held[i] := fun h' => h2 (h' ▸ List.getElem_mem hi)
          simp only; rw [if_neg this]; exact h6
        · intro a ha
          obtain ⟨j, x, hj, hx, hxf⟩ := h7 a ha
          have hij : i ≠ j := by
            rintro rfl
            rw [hp] at hx; cases hx
            rw [hflag] at hxf; cases hxf
          exact ⟨j, x, hj, by rw [List.getElem?_modify]; simp [hij, hx], hxf⟩
    · have hs : s.held[i]? = none := List.getElem?_eq_none (by omega)
      have hi2 : p.length ≤ i := by rw [← h.len]; omega
      have : p.modify i (fun e => (v, e.2)) = p := by
        apply List.ext_getElem?
        intro j
        rw [List.getElem?_modify]
        by_cases hij : i = j
        · subst hij; simp [List.getElem?_eq_none hi2]
        · simp [hij]
      simp only [step, hs, plainStep, this]
      exact ⟨trivial, h⟩
  | call args =>
    rcases resolve_sim h args with ⟨h1, h2⟩ | ⟨as, vals, h1, h2, h3, h4⟩
    · simp only [step, h1, plainStep, h2]
      exact ⟨trivial, h⟩
    · have hcall := cachedCall_sim hf h args as vals h3 h4
      simp only at hcall
      obtain ⟨hs1, hs2, hs3⟩ := hcall
      rcases hcc : cachedCall cfg f s as with ⟨s1, res⟩
      rw [hcc] at hs1 hs2 hs3
      simp only at hs1 hs2 hs3
      cases hv : f vals with
      | error e =>
        rw [hv] at hs3
        simp only at hs3
        subst hs3
        have : step cfg f s (.call args) = (s1, some (.error e)) := by
          simp only [step, h1, call, hcc]
        rw [this]
        simp only [plainStep, h2, hv]
        exact ⟨trivial, hs1⟩
      | ok v =>
        rw [hv] at hs3
        simp only at hs3
        obtain ⟨a, rfl, hheap⟩ := hs3
        have hst : step cfg f s (.call args) = ({ (s1.alloc v).1 with held := s1.next :: s1.held }, some (.ok v)) := by
          simp only [step, h1, call, hcc, hc, if_true, hheap, State.alloc, Option.map]
        rw [hst]
        simp only [plainStep, h2, hv]
        exact ⟨trivial, sim_push hs1 v⟩

theorem sim_init : Sim cfg f (State.init V) [] :=
  ⟨rfl, by simp [State.init], List.nodup_nil, by simp [State.init], by simp [State.init]⟩

theorem run_sim (hc : cfg.copy = true) (hf : RespectsKeys cfg.typed f) : ∀ (ops : List (Op V)) (s : State V) (p : Plain V),
    Sim cfg f s p → NoArgMutation f p ops → (run cfg f s ops).2 = plainRun f p ops := by
  intro ops
  induction ops with
  | nil => intros; rfl
  | cons o ops ih =>
    intro s p h hn
    obtain ⟨h1, h2⟩ := step_sim hc hf h o hn.1
    simp only [run, plainRun]
    rw [h1, ih _ _ h2 hn.2]

/-- C25. Transparency: over every history of calls, object creations and in-place mutations, a client of the copying cache
sees exactly the outputs it would see from the undecorated function, provided it does not overwrite an object after
passing it as an argument. Results it received may be overwritten at will. -/
theorem C25_transparent (maxsize : Option Nat) (typed : Bool) (f : List (Seen V) → Except PyErr V)
    (hf : RespectsKeys typed f) (ops : List (Op V)) (hn : NoArgMutation f [] ops) :
    (run ⟨maxsize, typed, true⟩ f (State.init V) ops).2 = plainRun f [] ops :=
  run_sim (cfg := ⟨maxsize, typed, true⟩) rfl hf ops _ _ sim_init hn

/-! ## Eviction order -/

theorem take_filter_not_mem (n : Nat) (k : Key) (L : List Key) (h : k ∉ L.take (n + 1)) :
    (L.filter (· ≠ k)).take n = L.take n := by
  induction n generalizing L with
  | zero => simp
  | succ n ih =>
    cases L with
    | nil => rfl
    | cons a L =>
      rw [List.take_succ_cons, List.mem_cons, not_or] at h
      rw [List.filter_cons_of_pos (by simpa using Ne.symm h.1), List.take_succ_cons, List.take_succ_cons, ih L h.2]

theorem filter_take_mem (n : Nat) (k : Key) (L : List Key) (hd : L.Nodup) (h : k ∈ L.take (n + 1)) :
    (L.filter (· ≠ k)).take n = (L.take (n + 1)).filter (· ≠ k) := by
  induction L generalizing n with
  | nil => simp
  | cons a L ih =>
    obtain ⟨ha, hd'⟩ := List.nodup_cons.1 hd
    by_cases hak : a = k
    · subst hak
      have hfilter : L.filter (· ≠ a) = L := by
        rw [List.filter_eq_self]; intro b hb; simpa using fun e : b = a => ha (e ▸ hb)
      have htf : (L.take n).filter (· ≠ a) = L.take n := by
        rw [List.filter_eq_self]; intro b hb
        simpa using fun e : b = a => ha (e ▸ List.mem_of_mem_take hb)
      rw [List.take_succ_cons, List.filter_cons_of_neg (by simp), List.filter_cons_of_neg (by simp), hfilter, htf]
    · rw [List.take_succ_cons, List.mem_cons] at h
      have h' := h.resolve_left (fun e => hak e.symm)
      cases n with
      | zero => simp at h'
      | succ n =>
        rw [List.filter_cons_of_pos (by simpa using hak), List.take_succ_cons, List.take_succ_cons,
          List.filter_cons_of_pos (by simpa using hak), ih n hd' h']

theorem byRecency_step_nodup (L : List Key) (k : Key) (h : L.Nodup) : (k :: L.filter (· ≠ k)).Nodup :=
  List.nodup_cons.2 ⟨by simp, h.filter _⟩

/-- Using a key that is in the cache. -/
theorem keep_hit (m : Option Nat) (L : List Key) (k : Key) (hd : L.Nodup) (h : k ∈ keep m L) :
    keep m (k :: L.filter (· ≠ k)) = k :: (keep m L).filter (· ≠ k) := by
  cases m with
  | none => rfl
  | some n =>
    cases n with
    | zero => simp [keep] at h
    | succ n => simp only [keep, List.take_succ_cons]; rw [filter_take_mem n k L hd h]

/-- Using a key that is not in the cache. -/
theorem keep_miss (m : Option Nat) (L : List Key) (k : Key) (h : k ∉ keep m L) :
    keep m (k :: L.filter (· ≠ k)) = keep m (k :: keep m L) := by
  cases m with
  | none =>
    simp only [keep] at h ⊢
    rw [List.filter_eq_self.2]
    intro b hb; simpa using fun e : b = k => h (e ▸ hb)
  | some n =>
    cases n with
    | zero => simp [keep]
    | succ n =>
      simp only [keep, List.take_succ_cons] at h ⊢
      rw [take_filter_not_mem n k L h, List.take_take]
      simp

theorem map_eraseP_key (c : List (Key × Nat)) (k : Key) (hd : (c.map Prod.fst).Nodup) :
    (c.eraseP (fun e => e.1 = k)).map Prod.fst = (c.map Prod.fst).filter (· ≠ k) := by
  induction c with
  | nil => rfl
  | cons e c ih =>
    rw [List.map_cons, List.nodup_cons] at hd
    by_cases h : e.1 = k
    · rw [List.eraseP_cons_of_pos (by simpa using h), List.map_cons, List.filter_cons_of_neg (by simpa using h),
        List.filter_eq_self.2]
      intro b hb
      simpa using fun e' : b = k => hd.1 (by rw [h, ← e']; exact hb)
    · rw [List.eraseP_cons_of_neg (by simpa using h), List.map_cons, List.map_cons,
        List.filter_cons_of_pos (by simpa using h), ih hd.2]

theorem map_trim (m : Option Nat) (c : List (Key × Nat)) : (trim m c).map Prod.fst = keep m (c.map Prod.fst) := by
  cases m with
  | none => rfl
  | some n => simp [trim, keep, List.map_take]

/-- Cached results are allocated. -/
def Alloc (s : State V) : Prop := ∀ e ∈ s.cache, (s.heap e.2).isSome

theorem keep_nodup (m : Option Nat) (L : List Key) (h : L.Nodup) : (keep m L).Nodup := by
  cases m with
  | none => exact h
  | some n => exact h.sublist (List.take_sublist _ _)

/-- The inner call: on success the key becomes the most recent one, otherwise the cache is unchanged. -/
theorem cachedCall_lru (cfg : Cfg) (f : List (Seen V) → Except PyErr V) (s : State V) (as : List Arg) (L : List Key)
    (hL : L.Nodup) (hk : s.cache.map Prod.fst = keep cfg.maxsize L) (ha : Alloc s) :
    let r := cachedCall cfg f s as
    let key := as.map (keyOf cfg.typed)
    Alloc r.1 ∧ (match r.2 with
      | .error _ => r.1.cache.map Prod.fst = keep cfg.maxsize L
      | .ok a => r.1.cache.map Prod.fst = keep cfg.maxsize (key :: L.filter (· ≠ key)) ∧ (r.1.heap a).isSome) := by
  intro r key
  cases hfind : s.cache.find? (fun e => e.1 = key) with
  | some e =>
    have hr : r = ({ s with cache := e :: s.cache.eraseP (fun e => e.1 = key) }, .ok e.2) := by
      simp only [r, cachedCall, key] at hfind ⊢; rw [hfind]
    have hmem := List.mem_of_find?_eq_some hfind
    have hkey : e.1 = key := by simpa using List.find?_some hfind
    rw [hr]
    refine ⟨?_, ?_, ha e hmem⟩
    · intro e' he'
      rcases List.mem_cons.1 he' with h' | h'
      · subst h'; exact ha _ hmem
      · exact ha _ (List.mem_of_mem_eraseP h')
    · have hin : key ∈ keep cfg.maxsize L := by
        rw [← hk, ← hkey]; exact List.mem_map_of_mem hmem
      rw [keep_hit _ _ _ hL hin, ← hk]
      simp only [List.map_cons, hkey]
      rw [map_eraseP_key _ _ (by rw [hk]; exact keep_nodup _ _ hL)]
  | none =>
    have hnin : key ∉ keep cfg.maxsize L := by
      rw [← hk]
      intro hm
      obtain ⟨e, he, hek⟩ := List.mem_map.1 hm
      have := List.find?_eq_none.1 hfind e he
      simp [hek] at this
    have hfind' : s.cache.find? (fun e => e.1 = as.map (keyOf cfg.typed)) = none := hfind
    cases hs : seeAll s.heap as with
    | none =>
      have hr : r = (s, .error .runtimeError) := by simp only [r, cachedCall, hfind', hs]
      rw [hr]; exact ⟨ha, hk⟩
    | some vals =>
      cases hv : f vals with
      | error e =>
        have hr : r = ({ s with evals := s.evals + 1 }, .error e) := by simp only [r, cachedCall, hfind', hs, hv]
        rw [hr]; exact ⟨ha, hk⟩
      | ok v =>
        have hr : r = (({ (s.alloc v).1 with
            cache := trim cfg.maxsize ((key, s.next) :: s.cache), evals := s.evals + 1 } : State V), .ok s.next) := by
          simp only [r, cachedCall, hfind', hs, hv]; rfl
        rw [hr]
        have hall : ∀ e ∈ (key, s.next) :: s.cache, ((s.alloc v).1.heap e.2).isSome := by
          intro e he
          simp only [State.alloc]
          split
          · rfl
          · rcases List.mem_cons.1 he with h' | h'
            · subst h'; simp_all
            · exact ha e h'
        refine ⟨fun e he => hall e (mem_trim _ _ _ he), ?_, by simp [State.alloc]⟩
        rw [keep_miss _ _ _ hnin, ← hk]
        simp only [map_trim, List.map_cons]

theorem step_lru (cfg : Cfg) (f : List (Seen V) → Except PyErr V) (s : State V) (o : Op V) (L : List Key)
    (hL : L.Nodup) (hk : s.cache.map Prod.fst = keep cfg.maxsize L) (ha : Alloc s) :
    Alloc (step cfg f s o).1 ∧ (step cfg f s o).1.cache.map Prod.fst = keep cfg.maxsize
      (List.foldl (fun acc k => k :: acc.filter (· ≠ k)) L (match o, (step cfg f s o).2 with
      | .call args, some (.ok _) => ((resolve s args).map fun as => [as.map (keyOf cfg.typed)]).getD []
      | _, _ => [])) := by
  cases o with
  | new v =>
    refine ⟨fun e he => ?_, hk⟩
    simp only [step, State.alloc]
    split
    · rfl
    · exact ha e he
  | mutate i v =>
    simp only [step]
    cases s.held[i]? with
    | none => exact ⟨ha, hk⟩
    | some a =>
      refine ⟨fun e he => ?_, hk⟩
      dsimp only
      split
      · rfl
      · exact ha e he
  | call args =>
    simp only [step]
    cases hres : resolve s args with
    | none => exact ⟨ha, hk⟩
    | some as =>
      obtain ⟨h1, h2⟩ := cachedCall_lru cfg f s as L hL hk ha
      rcases hcc : cachedCall cfg f s as with ⟨s1, res⟩
      rw [hcc] at h1 h2
      cases res with
      | error e =>
        simp only [call, hcc]
        exact ⟨h1, h2⟩
      | ok a =>
        simp only at h2
        obtain ⟨v, hv⟩ := Option.isSome_iff_exists.1 h2.2
        by_cases hc : cfg.copy = true
        · simp only [call, hcc, hc, if_true, hv, hres, State.alloc, Option.map, Option.getD, List.foldl]
          refine ⟨fun e he => ?_, h2.1⟩
          dsimp only
          split
          · rfl
          · exact h1 e he
        · simp only [call, hcc, hc, hv, hres, Bool.false_eq_true, if_false, Option.map, Option.getD, List.foldl]
          exact ⟨h1, h2.1⟩

theorem recency_nodup (l L : List Key) (h : L.Nodup) : (List.foldl (fun acc k => k :: acc.filter (· ≠ k)) L l).Nodup := by
  induction l generalizing L with
  | nil => exact h
  | cons k l ih => exact ih _ (byRecency_step_nodup L k h)

theorem run_lru (cfg : Cfg) (f : List (Seen V) → Except PyErr V) (ops : List (Op V)) : ∀ (s : State V) (L : List Key),
    L.Nodup → s.cache.map Prod.fst = keep cfg.maxsize L → Alloc s → (run cfg f s ops).1.cache.map Prod.fst
      = keep cfg.maxsize (List.foldl (fun acc k => k :: acc.filter (· ≠ k)) L (successfulKeys cfg f s ops)) := by
  induction ops with
  | nil => intro s L _ h _; exact h
  | cons o ops ih =>
    intro s L hL hk ha
    obtain ⟨h1, h2⟩ := step_lru cfg f s o L hL hk ha
    simp only [run, successfulKeys, List.foldl_append]
    exact ih _ _ (recency_nodup _ _ hL) h2 h1

/-- C25. Least-recently-used eviction, exactly: after every history, whatever the copy flag, the cached keys are the
`maxsize` most recently used distinct keys among the successful calls, in order of recency. -/
theorem C25_lru (cfg : Cfg) (f : List (Seen V) → Except PyErr V) (ops : List (Op V)) :
    (run cfg f (State.init V) ops).1.cache.map Prod.fst
      = keep cfg.maxsize (byRecency (successfulKeys cfg f (State.init V) ops)) :=
  run_lru cfg f ops _ [] List.nodup_nil (by cases h : cfg.maxsize <;> simp [State.init, keep]) (by simp [Alloc, State.init])

/-- C25. The cache never holds more than `maxsize` entries, nor two entries for one key. -/
theorem C25_bounded (cfg : Cfg) (f : List (Seen V) → Except PyErr V) (ops : List (Op V)) (n : Nat)
    (hn : cfg.maxsize = some n) :
    (run cfg f (State.init V) ops).1.cache.length ≤ n ∧ ((run cfg f (State.init V) ops).1.cache.map Prod.fst).Nodup := by
  have h := C25_lru cfg f ops
  constructor
  · have := congrArg List.length h
    rw [List.length_map, hn] at this
    rw [this]; simp [keep]
  · rw [h]; exact keep_nodup _ _ (recency_nodup _ _ List.nodup_nil)

/-- C25. The wrapped function is evaluated exactly on misses: a call whose key is cached costs no evaluation, any other
well-formed call costs exactly one. -/
theorem C25_evaluations (cfg : Cfg) (f : List (Seen V) → Except PyErr V) (s : State V) (args : List CArg) (as : List Arg)
    (hres : resolve s args = some as) (hs : (seeAll s.heap as).isSome) :
    (step cfg f s (.call args)).1.evals
      = if as.map (keyOf cfg.typed) ∈ s.cache.map Prod.fst then s.evals else s.evals + 1 := by
  have hcall : ∀ r, cachedCall cfg f s as = r → (step cfg f s (.call args)).1.evals = r.1.evals := by
    rintro ⟨s1, res⟩ hr
    cases res with
    | error e => simp only [step, hres, call, hr]
    | ok a =>
      by_cases hc : cfg.copy = true
      · cases hh : s1.heap a <;> simp only [step, hres, call, hr, hc, if_true, hh, State.alloc]
      · simp only [step, hres, call, hr, hc]; rfl
  rw [hcall _ rfl]
  obtain ⟨vals, hvals⟩ := Option.isSome_iff_exists.1 hs
  cases hfind : s.cache.find? (fun e => e.1 = as.map (keyOf cfg.typed)) with
  | some e =>
    have hkey : e.1 = as.map (keyOf cfg.typed) := by simpa using List.find?_some hfind
    rw [if_pos (by rw [← hkey]; exact List.mem_map_of_mem (List.mem_of_find?_eq_some hfind))]
    simp only [cachedCall, hfind]
  | none =>
    rw [if_neg]
    · cases hv : f vals <;> simp only [cachedCall, hfind, hvals, hv, State.alloc]
    · intro hm
      obtain ⟨e, he, hek⟩ := List.mem_map.1 hm
      have := List.find?_eq_none.1 hfind e he
      simp [hek] at this

/-! ## What the cache does not promise -/

/-- Without `copy` (as `get_filter_basis` is decorated) results are aliased: overwriting a returned object changes what
later calls return. -/
theorem C25_no_copy_aliases : ∃ (f : List (Seen Nat) → Except PyErr Nat) (ops : List (Op Nat)),
    NoArgMutation f [] ops ∧ (run ⟨some 20, true, false⟩ f (State.init Nat) ops).2 ≠ plainRun f [] ops := by
  refine ⟨fun _ => .ok 7, [.call [], .mutate 0 5, .call []], ?_, ?_⟩
  · refine ⟨trivial, ?_, trivial, trivial⟩
    intro e he
    simp [plainStep, plainArgs, markUsed] at he
    subst he; rfl
  · intro h
    have := congrArg (fun l => l[2]?) h
    simp [run, plainRun, step, plainStep, plainArgs, resolve, call, cachedCall, seeAll, State.init, State.alloc, trim] at this

/-- Even with `copy`, a tensor argument is recognised by identity: overwriting it and calling again returns the stale
result. The hypothesis of `C25_transparent` cannot be dropped. -/
theorem C25_stale_argument : ∃ (f : List (Seen Nat) → Except PyErr Nat) (ops : List (Op Nat)),
    (run ⟨some 20, true, true⟩ f (State.init Nat) ops).2 ≠ plainRun f [] ops := by
  refine ⟨fun l => match l with
    | [.obj v] => .ok v
    | _ => .error .typeError, [.new 1, .call [.held 0], .mutate 1 2, .call [.held 1]], ?_⟩
  intro h
  have := congrArg (fun l => l[3]?) h
  simp [run, plainRun, step, plainStep, plainArgs, markUsed, resolve, call, cachedCall, seeAll, see, State.init, State.alloc,
    trim, keyOf] at this

/-- With `typed=False` the call with `1.0` is answered with the result for `1`. -/
theorem C25_untyped_confuses : ∃ (f : List (Seen Nat) → Except PyErr Nat) (ops : List (Op Nat)),
    NoArgMutation f [] ops ∧ (run ⟨some 20, false, true⟩ f (State.init Nat) ops).2 ≠ plainRun f [] ops := by
  refine ⟨fun l => match l with
    | [.num .int _] => .ok 0
    | _ => .ok 1, [.call [.num .int 1], .call [.num .float 1]], ⟨trivial, trivial, trivial⟩, ?_⟩
  intro h
  have := congrArg (fun l => l[1]?) h
  simp [run, plainRun, step, plainStep, plainArgs, resolve, call, cachedCall, seeAll, see, State.init, State.alloc,
    trim, keyOf] at this

/-- Non-vacuity of `C25_transparent`: a client that calls with a tensor and numbers, overwrites the result and calls again. -/
example (f : List (Seen Nat) → Except PyErr Nat) (hf : f [.obj 3, .num .int 8] = .ok 5) :
    NoArgMutation f [] [.new 3, .call [.held 0, .num .int 8], .mutate 0 99, .call [.held 1, .num .int 8]] ∧
    plainRun f [] [.new 3, .call [.held 0, .num .int 8], .mutate 0 99, .call [.held 1, .num .int 8]]
      = [none, some (.ok 5), none, some (.ok 5)] := by
  constructor
  · refine ⟨trivial, trivial, ?_, trivial, trivial⟩
    intro e he
    simp [plainStep, plainArgs, hf] at he
    subst he; rfl
  · simp [plainRun, plainStep, plainArgs, markUsed, hf]

end Verif.Props
