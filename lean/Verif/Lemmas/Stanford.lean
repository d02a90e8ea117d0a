import Verif.Spec.Stanford
/-!
Disk states of the downloader.
-/
namespace Verif.Stanford
open Verif.Spec

theorem set_same (d : Disk) (p : String) (n : Option Node) : d.set p n p = n := by simp [Disk.set]
theorem set_ne (d : Disk) {p q : String} (n : Option Node) (h : q ≠ p) : d.set p n q = d q := by simp [Disk.set, h]
theorem set_set (d : Disk) (p : String) (n m : Option Node) : (d.set p n).set p m = d.set p m := by
  funext q; unfold Disk.set; split <;> rfl

theorem leaves_bind {α β : Type} {r : Run α} {k : Disk → α → Run β} {d : Disk} (h : (r.bind k).leaves d) :
    r.leaves d ∨ ∃ a, r.result = .ok a ∧ (k r.final a).leaves d := by
  unfold Run.bind at h
  cases hr : r.result with
  | error e =>
    rw [hr] at h
    exact .inl h
  | ok a =>
    rw [hr] at h
    rcases h with h | h
    · simp only [List.mem_append, List.mem_cons] at h
      rcases h with h | h | h
      · exact .inl (.inl h)
      · exact .inl (.inr h)
      · exact .inr ⟨a, rfl, .inl h⟩
    · exact .inr ⟨a, rfl, .inr h⟩

theorem leaves_final {α : Type} (r : Run α) : r.leaves r.final := .inr rfl

theorem bind_ok {α β : Type} {r : Run α} {k : Disk → α → Run β} {b : β} (h : (r.bind k).result = .ok b) :
    ∃ a, r.result = .ok a ∧ (k r.final a).result = .ok b ∧ (r.bind k).final = (k r.final a).final := by
  unfold Run.bind at h ⊢
  cases hr : r.result with
  | error e => rw [hr] at h; cases h
  | ok a => rw [hr] at h; exact ⟨a, rfl, h, rfl⟩

/-! ### One file -/

/-- What a download may leave of one file. -/
structure FileOk (content : Bytes) (f : String) (d : Disk) : Prop where
  file : d f = none ∨ d f = some (.file content)
  part : d (tempPath f) = none ∨ ∃ p, p <+: content ∧ d (tempPath f) = some (.file p)

theorem fetch_leaves {C : Conf} {content : Bytes} {f : String} {d : Disk} {server : Option ℕ → Reply}
    (hs : Honest content server) {old : Option Bytes} (hold : ∀ b, old = some b → b <+: content) {r : Option ℕ} (hr : r = old.map List.length)
    {d' : Disk} (h : (fetch C (server r) d f old).leaves d') :
    (d' = d ∨ ∃ p, p <+: content ∧ d' = d.set (tempPath f) (some (.file p))) ∨
      d' = (d.set (tempPath f) none).set f (some (.file content)) := by
  unfold fetch at h
  cases hq : server r with
  | fails =>
    rw [hq] at h
    rcases h with h | h
    · cases h
    · exact .inl (.inl h)
  | answer status body broken =>
    rw [hq] at h
    dsimp only at h
    by_cases h4 : 400 ≤ status ∧ status < 600
    · rw [if_pos h4] at h
      rcases h with h | h
      · cases h
      · exact .inl (.inl h)
    · rw [if_neg h4] at h
      obtain ⟨rest, hb1, hb2, hb3⟩ := (hs r status body broken hq).resolve_left h4
      obtain ⟨base, hbase⟩ : ∃ base, base = (if status = 206 then old.getD [] else []) := ⟨_, rfl⟩
      rw [← hbase] at h
      have hcat : base ++ rest = content := by
        rcases hb3 with ⟨h1, h2⟩ | ⟨start, h1, h2, h3⟩
        · rw [hbase, if_neg h1, h2]; rfl
        · rw [hbase, if_pos h2, h3]
          cases old with
          | none => rw [hr] at h1; cases h1
          | some b =>
            rw [hr] at h1
            cases h1
            obtain ⟨t, ht⟩ := hold b rfl
            rw [← ht]
            simp
      have hpre : ∀ q, q <+: body → base ++ q <+: content := fun q hq => by
        rw [← hcat]
        exact (List.prefix_append_right_inj base).2 (hq.trans hb1)
      have hw : ∀ x, x ∈ d :: writing d (tempPath f) base body → x = d ∨ ∃ p, p <+: content ∧ x = d.set (tempPath f) (some (.file p)) := by
        intro x hx
        rcases List.mem_cons.1 hx with hx | hx
        · exact .inl hx
        · unfold writing at hx
          obtain ⟨k, _, hk⟩ := List.mem_map.1 hx
          exact .inr ⟨_, hpre _ (List.take_prefix _ _), hk.symm⟩
      by_cases hbr : broken = true
      · rw [if_pos hbr] at h
        rcases h with h | h
        · exact .inl (hw _ h)
        · exact .inl (.inr ⟨_, hpre _ (List.prefix_refl _), h⟩)
      · rw [if_neg hbr] at h
        rcases h with h | h
        · exact .inl (hw _ h)
        · right
          rw [hb2 (by simpa using hbr), hcat, set_set] at h
          exact h

theorem download_leaves {C : Conf} {content : Bytes} {f : String} {d : Disk} (hne : tempPath f ≠ f) (hd : FileOk content f d) {server : Option ℕ → Reply}
    (hs : Honest content server) {d' : Disk} (h : (download C server d f).leaves d') :
    FileOk content f d' ∧ (∀ q, q ≠ f → q ≠ tempPath f → d' q = d q) ∧ (d f ≠ none → d' = d) := by
  unfold download at h
  cases hf : d f with
  | some n =>
    rw [hf] at h
    rcases h with h | h
    · cases h
    · rw [h]; exact ⟨hd, fun _ _ _ => rfl, fun _ => rfl⟩
  | none =>
    rw [hf] at h
    dsimp only at h
    have fin : (d' = d ∨ ∃ p, p <+: content ∧ d' = d.set (tempPath f) (some (.file p))) ∨ d' = (d.set (tempPath f) none).set f (some (.file content)) →
        FileOk content f d' ∧ (∀ q, q ≠ f → q ≠ tempPath f → d' q = d q) ∧ ((none : Option Node) ≠ none → d' = d) := by
      rintro ((rfl | ⟨p, hp, rfl⟩) | rfl)
      · exact ⟨hd, fun _ _ _ => rfl, fun h => absurd rfl h⟩
      · exact ⟨⟨.inl (by rw [set_ne _ _ hne.symm, hf]), .inr ⟨p, hp, set_same _ _ _⟩⟩, fun q _ h2 => set_ne _ _ h2, fun h => absurd rfl h⟩
      · exact ⟨⟨.inr (set_same _ _ _), .inl (by rw [set_ne _ _ hne, set_same])⟩, fun q h1 h2 => by rw [set_ne _ _ h1, set_ne _ _ h2], fun h => absurd rfl h⟩
    rcases hd.part with hp | ⟨p, hp, hp'⟩
    · rw [hp] at h
      exact fin (fetch_leaves hs (old := none) (by simp) rfl h)
    · rw [hp'] at h
      exact fin (fetch_leaves hs (old := some p) (by rintro b ⟨⟩; exact hp) rfl h)

theorem verify_ok {C : Conf} {f : String} {n : Node} {get : String → Option String} {e : String} (hC : C.checksums = some get) (he : get f = some e)
    (h : verify C f n = .ok ()) : ∃ b, n = .file b ∧ C.sha b = e := by
  unfold verify at h
  rw [hC] at h
  dsimp only at h
  rw [he] at h
  dsimp only at h
  cases n with
  | file b =>
    dsimp only at h
    split_ifs at h with hb
    exact ⟨b, rfl, hb⟩
  | folder l => cases h
  | h5 a b c => cases h

/-- A call that returns has left something under the file's name that passes the test. -/
theorem download_ok {C : Conf} {server : Option ℕ → Reply} {d : Disk} {f p : String} (h : (download C server d f).result = .ok p) :
    p = f ∧ ∃ n, (download C server d f).final f = some n ∧ verify C f n = .ok () := by
  have hv : ∀ n, (verify C f n).map (fun _ => f) = .ok p → p = f ∧ verify C f n = .ok () := by
    intro n hn
    cases hq : verify C f n with
    | error e => rw [hq] at hn; cases hn
    | ok u => rw [hq] at hn; cases hn; exact ⟨rfl, rfl⟩
  have hfe : ∀ reply old, (fetch C reply d f old).result = .ok p → p = f ∧ ∃ n, (fetch C reply d f old).final f = some n ∧ verify C f n = .ok () := by
    intro reply old h
    unfold fetch at h ⊢
    cases reply with
    | fails => cases h
    | answer status body broken =>
      dsimp only at h ⊢
      split_ifs at h ⊢ with h1 h2 h3
      · obtain ⟨a, b⟩ := hv _ h
        exact ⟨a, _, set_same _ _ _, b⟩
      · obtain ⟨a, b⟩ := hv _ h
        exact ⟨a, _, set_same _ _ _, b⟩
  unfold download at h ⊢
  cases hf : d f with
  | some n =>
    rw [hf] at h
    obtain ⟨a, b⟩ := hv n h
    exact ⟨a, n, hf, b⟩
  | none =>
    rw [hf] at h
    dsimp only at h ⊢
    cases hp : d (tempPath f) with
    | none => rw [hp] at h; exact hfe _ _ h
    | some m =>
      rw [hp] at h
      cases m with
      | file b => exact hfe _ _ h
      | folder l => cases h
      | h5 a b c => cases h

/-! ### Unpacking -/

theorem extract_spec {F : String} : ∀ (ms : List Member) (d : Disk) (l : List (String × Bool)), (d F = none ∧ l = [] ∨ d F = some (.folder l)) → (∀ m ∈ ms, m.top = F) →
    (∀ d', (extractMembers d ms).leaves d' → d' = d ∨ ∃ k, ∃ hk : k < ms.length, ∃ b : Bool,
      d' = d.set F (some (.folder (l ++ allOf (ms.take k) ++ [((ms[k]).rest, b)])))) ∧
    (extractMembers d ms).result = .ok () ∧ (extractMembers d ms).final = if ms = [] then d else d.set F (some (.folder (l ++ allOf ms)))
  | [], d, l, _, _ => by
    refine ⟨fun d' h => ?_, rfl, by simp [extractMembers]⟩
    rcases h with h | h
    · cases h
    · exact .inl h
  | m :: ms, d, l, hl, ht => by
    have hm : m.top = F := ht m (by simp)
    have key : extractMembers d (m :: ms) = ⟨d :: d.set F (some (.folder (l ++ [(m.rest, false)]))) :: d.set F (some (.folder (l ++ [(m.rest, true)]))) ::
        (extractMembers (d.set F (some (.folder (l ++ [(m.rest, true)])))) ms).trace, (extractMembers (d.set F (some (.folder (l ++ [(m.rest, true)])))) ms).final,
        (extractMembers (d.set F (some (.folder (l ++ [(m.rest, true)])))) ms).result⟩ := by
      rw [extractMembers, hm]
      rcases hl with ⟨h1, h2⟩ | h1
      · simp only [h1, h2]
      · simp only [h1]
    obtain ⟨ih1, ih2, ih3⟩ := extract_spec (F := F) ms (d.set F (some (.folder (l ++ [(m.rest, true)])))) (l ++ [(m.rest, true)]) (.inr (set_same _ _ _))
      (fun m' hm' => ht m' (by simp [hm']))
    have first : ∀ b, ∃ k, ∃ hk : k < (m :: ms).length, ∃ b' : Bool, d.set F (some (.folder (l ++ [(m.rest, b)])))
        = d.set F (some (.folder (l ++ allOf ((m :: ms).take k) ++ [(((m :: ms)[k]).rest, b')]))) := fun b =>
      ⟨0, by simp, b, by simp [allOf]⟩
    have next : ∀ d', (extractMembers (d.set F (some (.folder (l ++ [(m.rest, true)])))) ms).leaves d' → ∃ k, ∃ hk : k < (m :: ms).length, ∃ b' : Bool, d'
        = d.set F (some (.folder (l ++ allOf ((m :: ms).take k) ++ [(((m :: ms)[k]).rest, b')]))) := by
      intro d' h
      rcases ih1 d' h with rfl | ⟨k, hk, b, rfl⟩
      · exact first true
      · refine ⟨k + 1, by simpa using hk, b, ?_⟩
        rw [set_set]
        simp [allOf]
    rw [key]
    refine ⟨fun d' h => ?_, ih2, ?_⟩
    · rcases h with h | h
      · simp only [List.mem_cons] at h
        rcases h with h | h | h | h
        · exact .inl h
        · rw [h]; exact .inr (first false)
        · rw [h]; exact .inr (first true)
        · exact .inr (next d' (.inl h))
      · exact .inr (next d' (.inr h))
    · show (extractMembers (d.set F (some (.folder (l ++ [(m.rest, true)])))) ms).final = _
      rw [ih3]
      by_cases h : ms = []
      · simp [h, allOf]
      · simp [h, set_set, allOf]

end Verif.Stanford
