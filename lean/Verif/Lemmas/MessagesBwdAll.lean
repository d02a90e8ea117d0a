import Verif.Lemmas.MessagesBwd
/-!
The rounds of the backward pass put together: with messages between ranks it computes what `ringBackward` computes.
-/
namespace Verif.Msg
open Verif Verif.Spec.Msg Verif.Dist Verif.Ring Verif.Attn Verif.Spec.Attn Finset

section
variable {Pp Pa : ℕ} {glob : ℕ → ℕ → ℕ} {τ : Type} {lonIn : ℕ → ℕ → List ℕ} {r H : ℕ → ℕ → ℕ} {sk sv : ℕ → ℕ → RTen}

theorem mem_ite {α : Type} {b : Bool} {x y : α} (h : x ∈ if b = true then [y] else []) : x = y := by
  cases b with
  | false => cases h
  | true => exact List.mem_singleton.1 h

/-- All batches of the backward pass match. -/
theorem matched_bwd (hg : GlobInj Pp Pa glob) (hr : ∀ p < Pp, ∀ p' < Pp, ∀ a < Pa, r p a = r p' a) (need : Need) (kFirst : Bool)
    (k1 : ℕ → ℕ → ℕ → ℕ → RTen → RTen → τ → τ) (k2 : ℕ → ℕ → ℕ → ℕ → τ → RTen → RTen → Except PyErr (T4 × T4) → Except PyErr (T4 × T4)) :
    Matched (ofRounds (fun i => glob i.1 i.2) (bwdRounds Pp Pa glob need kFirst lonIn r H sk sv k1 k2)) := by
  refine matched_rounds _ _ (grid_inj hg) fun R hR => ?_
  unfold bwdRounds at hR
  split at hR
  · cases hR
  · rcases List.mem_append.1 hR with hR | hR
    · unfold pass1Rounds at hR
      obtain ⟨n, -, rfl⟩ := List.mem_map.1 hR
      exact matched_ring hg n _ (fun _ _ => rfl) (fun _ _ => rfl)
    · split at hR
      · simp only [List.mem_append] at hR
        rcases hR with ((((hR | hR) | hR) | hR) | hR) | hR
        · rw [List.mem_singleton.1 hR]
          exact matched_local _ _ (grid_inj hg)
        · unfold pass2Rounds at hR
          obtain ⟨n, -, hR⟩ := List.mem_flatMap.1 hR
          simp only [List.mem_cons, List.not_mem_nil, or_false] at hR
          rcases hR with rfl | rfl
          · exact matched_local _ _ (grid_inj hg)
          · exact matched_ring hg n _ (fun _ _ => rfl) (fun _ _ => rfl)
        · rw [mem_ite hR]; exact matched_reduce hg
        · rw [mem_ite hR]; exact matched_reduce hg
        · rw [mem_ite hR]; exact matched_haloGrad hg hr
        · rw [mem_ite hR]; exact matched_haloGrad hg hr
      · cases hR

theorem setGrad_st (isK : Bool) (s : BMem τ) (d : RTen) : (s.setGrad isK d).st = s.st := by cases isK <;> rfl
theorem setGrad_full (isK : Bool) (s : BMem τ) (d : RTen) : (s.setGrad isK d).full = s.full := by cases isK <;> rfl
theorem setGrad_same (isK : Bool) (s : BMem τ) (d : RTen) : (s.setGrad isK d).grad isK = d := by cases isK <;> rfl
theorem setGrad_other (isK : Bool) (s : BMem τ) (d : RTen) : (s.setGrad isK d).grad (!isK) = s.grad (!isK) := by cases isK <;> rfl

/-- What is known at the end of pass 2 and later: accumulators, gradients of all longitudes, and the gradients of keys or values as far as `c` says. -/
def Known (t : Fin Pp × Fin Pa → τ) (full : ℕ → ℕ → T4 × T4) (c : Bool → Bool) (d : Bool → ℕ → ℕ → RTen) (mem : Fin Pp × Fin Pa → BMem τ) : Prop :=
  ∀ i, (mem i).st = t i ∧ (mem i).full = .ok (full i.1 i.2) ∧ ∀ isK, c isK = true → (mem i).grad isK = d isK i.1 i.2

/-- The gradient of the keys or values before the backward pass of the halo exchange. -/
noncomputable def ownGrad (Pa : ℕ) (lonIn : ℕ → ℕ → List ℕ) (sk sv : ℕ → ℕ → RTen) (full : ℕ → ℕ → T4 × T4) (isK : Bool) (p a : ℕ) : RTen :=
  ⟨(if isK then sk p a else sv p a).B, (if isK then sk p a else sv p a).C, (sk p a).H, (lonIn p a).getD a 0,
    reduceSlice Pa a (offset (lonIn p a) a) fun a' => if isK then (full p a').1 else (full p a').2⟩

theorem known_reduce (hg : GlobInj Pp Pa glob) {t : Fin Pp × Fin Pa → τ} {full : ℕ → ℕ → T4 × T4} {c : Bool → Bool} {d : Bool → ℕ → ℕ → RTen} {mem : Fin Pp × Fin Pa → BMem τ}
    (isK b : Bool) (shape : ℕ → ℕ → RTen) (hsh : ∀ p a, shape p a = if isK then sk p a else sv p a)
    (hs : ∀ p < Pp, ∀ a < Pa, ∀ a' < Pa, (shape p a).B = (shape p a').B ∧ (shape p a).C = (shape p a').C ∧ (sk p a).H = (sk p a').H ∧ (lonIn p a).sum = (lonIn p a').sum)
    (h : Known t full c d mem) :
    Known t full (fun x => if x = isK then b else c x) (fun x => if x = isK then ownGrad Pa lonIn sk sv full isK else d x)
        (runs (fun i => glob i.1 i.2) (if b then [reduceRound Pp Pa glob isK lonIn shape fun p a => (sk p a).H] else []) mem) ∧
      FitsAll (fun i => glob i.1 i.2) (if b then [reduceRound Pp Pa glob isK lonIn shape fun p a => (sk p a).H] else []) mem := by
  cases b with
  | false =>
    refine ⟨fun i => ⟨(h i).1, (h i).2.1, fun x hx => ?_⟩, trivial⟩
    dsimp only at hx ⊢
    by_cases he : x = isK
    · rw [if_pos he] at hx; cases hx
    · rw [if_neg he] at hx ⊢; exact (h i).2.2 x hx
  | true =>
    have hfo : ∀ i, (mem i).fullOf isK = if isK then (full i.1 i.2).1 else (full i.1 i.2).2 := fun i => by
      unfold BMem.fullOf; rw [(h i).2.1]
    have hrun := run_reduce (lonIn := lonIn) (shape := shape) (rows := fun p a => (sk p a).H) hg mem (fun p a => if isK then (full p a).1 else (full p a).2) hfo
    have e : ∀ i, runs (fun i => glob i.1 i.2) (if true = true then [reduceRound Pp Pa glob isK lonIn shape fun p a => (sk p a).H] else []) mem i =
        (mem i).setGrad isK (ownGrad Pa lonIn sk sv full isK i.1 i.2) := fun i => by
      refine (hrun i).trans ?_
      unfold ownGrad
      rw [hsh]
    refine ⟨fun i => ?_, fits_reduce hg mem hs, trivial⟩
    rw [e i]
    refine ⟨by rw [setGrad_st]; exact (h i).1, by rw [setGrad_full]; exact (h i).2.1, fun x hx => ?_⟩
    dsimp only at hx ⊢
    by_cases he : x = isK
    · rw [if_pos he, he, setGrad_same]
    · rw [if_neg he] at hx ⊢
      have hx' : x = !isK := by cases x <;> cases isK <;> simp_all
      rw [hx', setGrad_other, ← hx']
      exact (h i).2.2 x hx

theorem known_halo (hg : GlobInj Pp Pa glob) (hr : ∀ p < Pp, ∀ p' < Pp, ∀ a < Pa, r p a = r p' a) {t : Fin Pp × Fin Pa → τ} {full : ℕ → ℕ → T4 × T4} {c : Bool → Bool}
    {d : Bool → ℕ → ℕ → RTen} {mem : Fin Pp × Fin Pa → BMem τ} (isK b : Bool) (hb : b = true → c isK = true)
    (hH : ∀ p < Pp, ∀ a < Pa, r p a > 0 → Pp > 1 → (d isK p a).H = H p a + 2 * r p a) (h : Known t full c d mem) :
    Known t full (fun x => if x = isK then b else c x) (fun x => if x = isK then fun p a => haloGrad Pp (r p a) (fun s => H s a) (d isK) p a else d x)
        (runs (fun i => glob i.1 i.2) (if b then [haloGradRound Pp Pa glob isK r H] else []) mem) ∧
      FitsAll (fun i => glob i.1 i.2) (if b then [haloGradRound Pp Pa glob isK r H] else []) mem := by
  cases b with
  | false =>
    refine ⟨fun i => ⟨(h i).1, (h i).2.1, fun x hx => ?_⟩, trivial⟩
    dsimp only at hx ⊢
    by_cases he : x = isK
    · rw [if_pos he] at hx; cases hx
    · rw [if_neg he] at hx ⊢; exact (h i).2.2 x hx
  | true =>
    have hd : ∀ i, (mem i).grad isK = d isK i.1 i.2 := fun i => (h i).2.2 isK (hb rfl)
    have e : ∀ i, runs (fun i => glob i.1 i.2) (if true = true then [haloGradRound Pp Pa glob isK r H] else []) mem i =
        (mem i).setGrad isK (haloGrad Pp (r i.1 i.2) (fun s => H s i.2) (d isK) i.1 i.2) := fun i => run_haloGrad hg hr mem (d isK) hd i
    refine ⟨fun i => ?_, fits_haloGrad hg hr mem (d isK) hd hH, trivial⟩
    rw [e i]
    refine ⟨by rw [setGrad_st]; exact (h i).1, by rw [setGrad_full]; exact (h i).2.1, fun x hx => ?_⟩
    dsimp only at hx ⊢
    by_cases he : x = isK
    · rw [if_pos he, he, setGrad_same]
    · rw [if_neg he] at hx ⊢
      have hx' : x = !isK := by cases x <;> cases isK <;> simp_all
      rw [hx', setGrad_other, ← hx']
      exact (h i).2.2 x hx

/-- The part after pass 2. -/
theorem tail_runs (hg : GlobInj Pp Pa glob) (hr : ∀ p < Pp, ∀ p' < Pp, ∀ a < Pa, r p a = r p' a)
    (hsk : ∀ p < Pp, ∀ a < Pa, ∀ a' < Pa, (sk p a).B = (sk p a').B ∧ (sk p a).C = (sk p a').C ∧ (sk p a).H = (sk p a').H ∧ (lonIn p a).sum = (lonIn p a').sum)
    (hsv : ∀ p < Pp, ∀ a < Pa, ∀ a' < Pa, (sv p a).B = (sv p a').B ∧ (sv p a).C = (sv p a').C)
    (hH : ∀ p < Pp, ∀ a < Pa, r p a > 0 → Pp > 1 → (sk p a).H = H p a + 2 * r p a) {t : Fin Pp × Fin Pa → τ} {full : ℕ → ℕ → T4 × T4} {mem : Fin Pp × Fin Pa → BMem τ}
    (need : Need) (kFirst : Bool) (h : Known t full (fun _ => false) (fun _ => sk) mem) :
    let L := (if need.k then [reduceRound Pp Pa glob true lonIn sk fun p a => (sk p a).H] else []) ++
          (if need.v then [reduceRound Pp Pa glob false lonIn sv fun p a => (sk p a).H] else []) ++
          (if (if kFirst then need.k else need.v) then [haloGradRound Pp Pa glob kFirst r H] else []) ++
          (if (if kFirst then need.v else need.k) then [haloGradRound Pp Pa glob (!kFirst) r H] else [])
    Known t full (fun x => if x then need.k else need.v) (fun x p a => haloGrad Pp (r p a) (fun s => H s a) (ownGrad Pa lonIn sk sv full x) p a)
        (runs (fun i => glob i.1 i.2) L mem) ∧ FitsAll (fun i => glob i.1 i.2) L mem := by
  intro L
  obtain ⟨h1, f1⟩ := known_reduce (lonIn := lonIn) (sk := sk) (sv := sv) hg true need.k sk (fun _ _ => rfl) hsk h
  obtain ⟨h2, f2⟩ := known_reduce (lonIn := lonIn) (sk := sk) (sv := sv) hg false need.v sv (fun _ _ => rfl)
    (fun p hp a ha a' ha' => ⟨(hsv p hp a ha a' ha').1, (hsv p hp a ha a' ha').2, (hsk p hp a ha a' ha').2.2⟩) h1
  obtain ⟨h3, f3⟩ := known_halo (r := r) (H := H) hg hr kFirst (if kFirst then need.k else need.v) (by cases kFirst <;> exact fun h => h)
    (by cases kFirst <;> exact hH) h2
  obtain ⟨h4, f4⟩ := known_halo (r := r) (H := H) hg hr (!kFirst) (if kFirst then need.v else need.k) (by cases kFirst <;> exact fun h => h)
    (by cases kFirst <;> exact hH) h3
  constructor
  · intro i
    have := h4 i
    simp only [← runs_append] at this
    refine ⟨this.1, this.2.1, fun x hx => ?_⟩
    rw [this.2.2 x (by cases x <;> cases kFirst <;> exact hx)]
    cases x <;> cases kFirst <;> rfl
  · simp only [L, fitsAll_append, runs_append]
    exact ⟨⟨⟨f1, f2⟩, f3⟩, f4⟩

end

section
variable {g : Grids} {w : ℕ → ℝ} {Pp Pa : ℕ} {glob : ℕ → ℕ → ℕ} {D : ℕ → ℕ → DAttn} {bl : ℕ → ℕ → ℕ → BLaunch} {S : ℕ → ℕ → Slot (ℕ → ℕ × ℕ → Acc)} {q dy : ℕ → ℕ → RTen}

theorem pass1_attn (hg : GlobInj Pp Pa glob) {stats : ℕ → ℕ → ℕ → ℕ × ℕ → Stats} (h : ringPass1 g w Pp Pa D bl S q dy = .ok stats) :
    (∀ i, (runs (fun i => glob i.1 i.2) (pass1Rounds Pp Pa glob (fun p a => (D p a).lonIn) (attnPass1 g w D bl S q dy) Pa) (bwdMem Pp Pa S) i).st.stats g = stats i.1 i.2) ∧
      FitsAll (fun i => glob i.1 i.2) (pass1Rounds Pp Pa glob (fun p a => (D p a).lonIn) (attnPass1 g w D bl S q dy) Pa) (bwdMem Pp Pa S) := by
  unfold ringPass1 at h
  simp only [bind, Except.bind, pure, Except.pure] at h
  by_cases hu : g.upsample = true
  · rw [if_pos hu] at h
    split at h
    · cases h
    · next st hst =>
      cases h
      obtain ⟨h1, h2⟩ := pass1_runs (τ := P1Acc) hg (attnPass1 g w D bl S q dy) P1Acc.up _
        (fun p a step src k v t => by unfold attnPass1; rw [if_pos hu]) (bwdMem Pp Pa S) _ (fun i => rfl) Pa st hst
      refine ⟨fun i => ?_, h2⟩
      unfold P1Acc.stats
      rw [if_pos hu]
      exact congrArg Slot.acc (h1 i)
  · rw [if_neg hu] at h
    split at h
    · cases h
    · next st hst =>
      cases h
      obtain ⟨h1, h2⟩ := pass1_runs (τ := P1Acc) hg (attnPass1 g w D bl S q dy) P1Acc.gather _
        (fun p a step src k v t => by unfold attnPass1; rw [if_neg hu]) (bwdMem Pp Pa S) _ (fun i => rfl) Pa st hst
      refine ⟨fun i => ?_, h2⟩
      unfold P1Acc.stats
      rw [if_neg hu]
      have := congrArg Slot.acc (h1 i)
      funext b c
      exact congrArg (fun f => (f b c).st) this

/-- With messages between ranks the backward pass computes what `ringBackward` computes. -/
theorem bwd_runs (hg : GlobInj Pp Pa glob) (hr : ∀ p < Pp, ∀ p' < Pp, ∀ a < Pa, (D p a).r = (D p' a).r)
    (hsum : ∀ p < Pp, ∀ a < Pa, ∀ a' < Pa, (D p a).lonIn.sum = (D p a').lonIn.sum)
    (hk : ∀ p < Pp, ∀ a < Pa, ∀ a' < Pa, (S p a).k.B = (S p a').k.B ∧ (S p a).k.C = (S p a').k.C ∧ (S p a).k.H = (S p a').k.H)
    (hv : ∀ p < Pp, ∀ a < Pa, ∀ a' < Pa, (S p a).v.B = (S p a').v.B ∧ (S p a).v.C = (S p a').v.C)
    (hH : ∀ p < Pp, ∀ a < Pa, (D p a).r > 0 → Pp > 1 → (S p a).k.H = (D p a).latIn.getD p 0 + 2 * (D p a).r) (need : Need) (kFirst : Bool) {G : ℕ → ℕ → Ring.Grads}
    (hG : ringBackward g w Pp Pa D bl S q dy need = .ok G) :
    let L := bwdRounds Pp Pa glob need kFirst (fun p a => (D p a).lonIn) (fun p a => (D p a).r) (fun p a => (D p a).latIn.getD p 0)
      (fun p a => (S p a).k) (fun p a => (S p a).v) (attnPass1 g w D bl S q dy) (attnPass2 g w D bl S q dy)
    (∀ i, bwdOut g D S need i (runs (fun i => glob i.1 i.2) L (bwdMem Pp Pa S) i) = G i.1 i.2) ∧ FitsAll (fun i => glob i.1 i.2) L (bwdMem Pp Pa S) := by
  intro L
  unfold ringBackward at hG
  by_cases hn : (!(need.k || need.v || need.q)) = true
  · rw [if_pos hn] at hG
    cases hG
    have hL : L = [] := if_pos hn
    rw [hL]
    refine ⟨fun i => ?_, trivial⟩
    have h1 : need.k = false := by cases h : need.k <;> simp_all
    have h2 : need.v = false := by cases h : need.v <;> simp_all
    have h3 : need.q = false := by cases h : need.q <;> simp_all
    unfold bwdOut
    rw [h1, h2, h3]
    rfl
  · rw [if_neg hn] at hG
    simp only [bind, Except.bind, pure, Except.pure] at hG
    cases hs : ringPass1 g w Pp Pa D bl S q dy with
    | error e => rw [hs] at hG; cases hG
    | ok stats =>
      rw [hs] at hG
      dsimp only at hG
      obtain ⟨a1, f1⟩ := pass1_attn hg hs
      cases hm : maybePass2 g w Pp Pa D bl S q dy stats need with
      | error e => rw [hm] at hG; cases hG
      | ok full =>
        rw [hm] at hG
        cases hG
        by_cases hkv : (need.k || need.v) = true
        · set mem1 := runs (fun i => glob i.1 i.2) (pass1Rounds Pp Pa glob (fun p a => (D p a).lonIn) (attnPass1 g w D bl S q dy) Pa) (bwdMem Pp Pa S) with hmem1
          unfold maybePass2 ringPass2 at hm
          rw [if_pos hkv] at hm
          simp only [bind, Except.bind] at hm
          split at hm
          · cases hm
          · next st hst =>
            set mem2 : Fin Pp × Fin Pa → BMem P1Acc := fun i =>
              { mem1 i with k := (S i.1 i.2).k, v := (S i.1 i.2).v, full := .ok (fun _ _ _ _ => 0, fun _ _ _ _ => 0) } with hmem2
            obtain ⟨b1, b2, f2⟩ := pass2_runs (glob := glob) hg (attnPass2 g w D bl S q dy) _ mem2
              (fun i step src k v f => by
                change _ = attnPass2 g w D bl S q dy i.1 i.2 step src (mem1 i).st k v f
                unfold attnPass2
                rw [a1 i]) _ (fun i => rfl) Pa st hst
            have hK : Known (fun i => (mem1 i).st) full (fun _ => false) (fun _ p a => (S p a).k)
                (runs (fun i => glob i.1 i.2) (pass2Rounds Pp Pa glob (fun p a => (D p a).lonIn) (attnPass2 g w D bl S q dy) Pa) mem2) := fun i =>
              ⟨b2 i, (congrArg Slot.acc (b1 i)).trans (collect_all hm i.1 i.1.2 i.2 i.2.2), fun _ h => by cases h⟩
            obtain ⟨t1, f3⟩ := tail_runs (glob := glob) (lonIn := fun p a => (D p a).lonIn) (r := fun p a => (D p a).r) (H := fun p a => (D p a).latIn.getD p 0)
              (sk := fun p a => (S p a).k) (sv := fun p a => (S p a).v) hg hr
              (fun p hp a ha a' ha' => ⟨(hk p hp a ha a' ha').1, (hk p hp a ha a' ha').2.1, (hk p hp a ha a' ha').2.2, hsum p hp a ha a' ha'⟩) hv hH need kFirst hK
            have hL : L = pass1Rounds Pp Pa glob (fun p a => (D p a).lonIn) (attnPass1 g w D bl S q dy) Pa ++
                ([localRound fun i s => { s with k := (S i.1 i.2).k, v := (S i.1 i.2).v, full := .ok (fun _ _ _ _ => 0, fun _ _ _ _ => 0) }] ++
                  (pass2Rounds Pp Pa glob (fun p a => (D p a).lonIn) (attnPass2 g w D bl S q dy) Pa ++
                  ((if need.k then [reduceRound Pp Pa glob true (fun p a => (D p a).lonIn) (fun p a => (S p a).k) fun p a => (S p a).k.H] else []) ++
                  (if need.v then [reduceRound Pp Pa glob false (fun p a => (D p a).lonIn) (fun p a => (S p a).v) fun p a => (S p a).k.H] else []) ++
                  (if (if kFirst then need.k else need.v) then [haloGradRound Pp Pa glob kFirst (fun p a => (D p a).r) (fun p a => (D p a).latIn.getD p 0)] else []) ++
                  (if (if kFirst then need.v else need.k) then [haloGradRound Pp Pa glob (!kFirst) (fun p a => (D p a).r) (fun p a => (D p a).latIn.getD p 0)] else [])))) := by
              simp only [L, bwdRounds]
              rw [if_neg hn, if_pos hkv]
              simp only [List.append_assoc]
            rw [hL]
            have hm2 : runs (fun i => glob i.1 i.2)
                [(localRound fun i s => { s with k := (S i.1 i.2).k, v := (S i.1 i.2).v, full := .ok (fun _ _ _ _ => 0, fun _ _ _ _ => 0) } : Round (Fin Pp × Fin Pa) (BMem P1Acc) RTen)]
                mem1 = mem2 := rfl
            constructor
            · intro i
              rw [runs_append, runs_append, runs_append, ← hmem1, hm2]
              obtain ⟨u1, -, u3⟩ := t1 i
              refine (fun X (u1 : X.st = (mem1 i).st) (u3 : ∀ isK : Bool, (if isK then need.k else need.v) = true → X.grad isK = haloGrad Pp (D i.1 i.2).r
                (fun s => (D s i.2).latIn.getD s 0) (ownGrad Pa (fun p a => (D p a).lonIn) (fun p a => (S p a).k) (fun p a => (S p a).v) full isK) i.1 i.2) => ?_ :
                ∀ X : BMem P1Acc, X.st = _ → _ → bwdOut g D S need i X = _) _ u1 u3
              unfold bwdOut
              rw [u1, a1 i]
              congr 1
              · by_cases hk' : need.k = true
                · rw [if_pos hk', if_pos hk']
                  exact congrArg some (u3 true hk')
                · rw [if_neg hk', if_neg hk']
              · by_cases hv' : need.v = true
                · rw [if_pos hv', if_pos hv']
                  exact congrArg some (u3 false hv')
                · rw [if_neg hv', if_neg hv']
            · rw [fitsAll_append, fitsAll_append, fitsAll_append, ← hmem1, hm2]
              exact ⟨f1, ⟨fits_local _ _ _, trivial⟩, f2, f3⟩
        · have hL : L = pass1Rounds Pp Pa glob (fun p a => (D p a).lonIn) (attnPass1 g w D bl S q dy) Pa := by
            simp only [L, bwdRounds]
            rw [if_neg hn, if_neg hkv, List.append_nil]
          rw [hL]
          refine ⟨fun i => ?_, f1⟩
          have h1 : need.k = false := by cases h : need.k <;> simp_all
          have h2 : need.v = false := by cases h : need.v <;> simp_all
          unfold bwdOut
          rw [h1, h2, a1 i]
          rfl

end
end Verif.Msg
