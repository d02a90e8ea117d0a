import Mathlib.Data.List.TakeWhile
import Verif.Lemmas.Stanford
/-!
C80: downloads of the Stanford data set that are interrupted.
-/
namespace Verif.Props
open Verif Verif.Stanford Verif.Spec

/-! ### One file -/

/-- C80. Whatever the server sends and whatever is on the disk: if a file with a known checksum is returned, the file under that name has this checksum. -/
theorem C80_verified (C : Conf) (get : String → Option String) (hC : C.checksums = some get) (f e : String) (he : get f = some e) (server : Option ℕ → Reply)
    (d : Disk) (p : String) (h : (download C server d f).result = .ok p) :
    p = f ∧ ∃ b, (download C server d f).final f = some (.file b) ∧ C.sha b = e := by
  obtain ⟨h1, n, h2, h3⟩ := download_ok h
  obtain ⟨b, rfl, hb⟩ := verify_ok hC he h3
  exact ⟨h1, b, h2, hb⟩

theorem attempts_ok {C : Conf} {content : Bytes} {f : String} {d0 d : Disk} (hne : tempPath f ≠ f) (h0 : FileOk content f d0) (h : Attempts C content f d0 d) :
    FileOk content f d := by
  induction h with
  | start => exact h0
  | attempt _ hs hl ih => exact (download_leaves hne ih hs hl).1

/-- C80. Resuming. After any number of attempts, each of which ended, raised or was killed anywhere, with servers that deliver `content` (with or without
support for ranges) and with or without checksums: the file is absent or complete, the temporary file is absent or a prefix of the content; a further call
that returns leaves the complete file, and it does return if the server sends everything and the checksum of `content` is right or unknown. -/
theorem C80_resume (C : Conf) (content : Bytes) (f : String) (hne : tempPath f ≠ f) (d0 d : Disk) (h0 : d0 f = none) (h0' : d0 (tempPath f) = none)
    (h : Attempts C content f d0 d) (server : Option ℕ → Reply) (hs : Honest content server) :
    (d f = none ∨ d f = some (.file content)) ∧ (d (tempPath f) = none ∨ ∃ p, p <+: content ∧ d (tempPath f) = some (.file p)) ∧
    (∀ p, (download C server d f).result = .ok p → p = f ∧ (download C server d f).final f = some (.file content)) ∧
    ((∀ range, ∃ status body, server range = .answer status body false ∧ status < 400) → verify C f (.file content) = .ok () →
      (download C server d f).result = .ok f) := by
  have hd := attempts_ok hne ⟨.inl h0, .inl h0'⟩ h
  refine ⟨hd.file, hd.part, fun p hp => ?_, fun hgood hv => ?_⟩
  · obtain ⟨h1, n, h2, _⟩ := download_ok hp
    have := (download_leaves (C := C) hne hd hs (leaves_final _)).1.file
    rw [h2] at this
    rcases this with h3 | h3
    · cases h3
    · exact ⟨h1, by rw [h2, h3]⟩
  · have fe : ∀ old : Option Bytes, (∀ b, old = some b → b <+: content) → (fetch C (server (old.map List.length)) d f old).result = .ok f := by
      intro old hold
      obtain ⟨status, body, hq, hlt⟩ := hgood (old.map List.length)
      have hfin := fetch_leaves (C := C) (f := f) (d := d) hs hold rfl (leaves_final _)
      obtain ⟨rest, _, hb2, hb3⟩ := (hs _ _ _ _ hq).resolve_left (by omega)
      have hcat : (if status = 206 then old.getD [] else []) ++ body = content := by
        rw [hb2 rfl]
        rcases hb3 with ⟨h1, h2⟩ | ⟨start, h1, h2, h3⟩
        · rw [if_neg h1, h2]; rfl
        · rw [if_pos h2, h3]
          cases old with
          | none => cases h1
          | some b =>
            cases h1
            obtain ⟨t, ht⟩ := hold b rfl
            rw [← ht]
            simp
      rw [hq]
      unfold fetch
      dsimp only
      rw [if_neg (by omega), if_neg (by simp), hcat, hv]
      rfl
    unfold download
    rcases hd.file with hf | hf
    · rw [hf]
      dsimp only
      rcases hd.part with hp | ⟨p, hp, hp'⟩
      · rw [hp]; exact fe none (by simp)
      · rw [hp']; exact fe (some p) (by rintro b ⟨⟩; exact hp)
    · rw [hf]
      dsimp only
      rw [hv]
      rfl

/-- C80, finding. If an attempt is killed after the last byte but before the file is renamed, the temporary file is complete; this can happen in every download. A
server that follows the standard answers a request for the bytes after the last one with status 416. Then every further call raises and changes nothing. -/
theorem C80_stuck (C : Conf) (content : Bytes) (f : String) (hne : tempPath f ≠ f) (d0 : Disk) (h0 : d0 f = none) (h0' : d0 (tempPath f) = none) :
    ∃ d, Attempts C content f d0 d ∧ d f = none ∧ d (tempPath f) = some (.file content) ∧
      ∀ server : Option ℕ → Reply, (∃ body broken, server (some content.length) = .answer 416 body broken) →
        (download C server d f).result = .error .http ∧ ∀ d', (download C server d f).leaves d' → d' = d := by
  refine ⟨d0.set (tempPath f) (some (.file content)), .attempt (server := fun _ => .answer 200 content false) .start ?_ ?_, ?_, set_same _ _ _, ?_⟩
  · intro range status body broken h
    cases h
    exact .inr ⟨content, List.prefix_refl _, fun _ => rfl, .inl ⟨by decide, rfl⟩⟩
  · unfold download
    rw [h0]
    dsimp only
    rw [h0']
    left
    simp only [fetch, Option.getD_none, ite_self, List.nil_append]
    rw [if_neg (by decide), if_neg (by simp)]
    refine List.mem_cons_of_mem _ (List.mem_map.2 ⟨content.length, by simp, by simp⟩)
  · rw [set_ne _ _ hne.symm, h0]
  · rintro server ⟨body, broken, hq⟩
    have e : download C server (d0.set (tempPath f) (some (.file content))) f = ⟨[], d0.set (tempPath f) (some (.file content)), .error .http⟩ := by
      unfold download
      rw [set_ne _ _ hne.symm, h0]
      dsimp only
      rw [set_same]
      dsimp only
      rw [hq]
      simp [fetch]
    rw [e]
    refine ⟨rfl, fun d' h => ?_⟩
    rcases h with h | h
    · cases h
    · exact h

/-- C80, finding. A file that fails its checksum stays under its final name: every further call raises without asking the server, until the user removes it (as the
message says). -/
theorem C80_mismatch_stays (C : Conf) (get : String → Option String) (hC : C.checksums = some get) (f e : String) (he : get f = some e) (b : Bytes)
    (hb : C.sha b ≠ e) (d : Disk) (hd : d f = some (.file b)) (server : Option ℕ → Reply) :
    (download C server d f).result = .error .checksum ∧ ∀ d', (download C server d f).leaves d' → d' = d := by
  unfold download
  rw [hd]
  refine ⟨by simp [verify, hC, he, hb, Except.map], fun d' h => ?_⟩
  rcases h with h | h
  · cases h
  · exact h

/-- C80, finding. If the file on the server changes between two attempts, a resumed download puts the beginning of the old and the end of the new version
together. With a checksum this is noticed (`C80_verified`), without one it is returned. -/
theorem C80_versions_mixed (C : Conf) (hC : C.checksums = none) (old new : Bytes) (k : ℕ) (hk : k ≤ old.length) (f : String)
    (hne : tempPath f ≠ f) (d0 : Disk) (h0 : d0 f = none) (h0' : d0 (tempPath f) = none) :
    ∃ d, Attempts C old f d0 d ∧ ∃ server, Honest new server ∧ (download C server d f).result = .ok f ∧
      (download C server d f).final f = some (.file (old.take k ++ new.drop k)) := by
  have hlen : (old.take k).length = k := by simp [hk]
  refine ⟨d0.set (tempPath f) (some (.file (old.take k))), .attempt (server := fun _ => .answer 200 old false) .start ?_ ?_,
    fun r => match r with | none => .answer 200 new false | some s => .answer 206 (new.drop s) false, ?_, ?_⟩
  · intro range status body broken h
    cases h
    exact .inr ⟨old, List.prefix_refl _, fun _ => rfl, .inl ⟨by decide, rfl⟩⟩
  · unfold download
    rw [h0]
    dsimp only
    rw [h0']
    left
    simp only [fetch, Option.getD_none, ite_self, List.nil_append]
    rw [if_neg (by decide), if_neg (by simp)]
    refine List.mem_cons_of_mem _ (List.mem_map.2 ⟨k, by simp; omega, by simp⟩)
  · intro range status body broken h
    cases range with
    | none => cases h; exact .inr ⟨new, List.prefix_refl _, fun _ => rfl, .inl ⟨by decide, rfl⟩⟩
    | some s => cases h; exact .inr ⟨new.drop s, List.prefix_refl _, fun _ => rfl, .inr ⟨s, rfl, rfl, rfl⟩⟩
  · unfold download
    rw [set_ne _ _ hne.symm, h0]
    dsimp only
    rw [set_same]
    dsimp only
    simp only [fetch]
    rw [if_neg (by decide), if_neg (by simp)]
    refine ⟨by simp [verify, hC, Except.map], ?_⟩
    dsimp only
    rw [set_same]
    simp [hlen]

/-! ### The data set -/

/-- What runs of `download_dataset` may leave of one pair. -/
structure PairOk (content : String → Bytes) (members : String → List Member) (p : String × String) (d : Disk) : Prop where
  file : FileOk (content p.1) p.1 d
  folder : d p.2 = none ∨ d p.2 = some (.folder (allOf (members p.1))) ∨
    d p.1 = some (.file (content p.1)) ∧ ∃ k, ∃ hk : k < (members p.1).length, ∃ b : Bool,
      d p.2 = some (.folder (allOf ((members p.1).take k) ++ [(((members p.1)[k]).rest, b)]))

theorem pairOk_frame {content : String → Bytes} {members : String → List Member} {p : String × String} {d d' : Disk} (h : PairOk content members p d)
    (h1 : d' p.1 = d p.1) (h2 : d' (tempPath p.1) = d (tempPath p.1)) (h3 : d' p.2 = d p.2) : PairOk content members p d' :=
  ⟨⟨by rw [h1]; exact h.file.file, by rw [h2]; exact h.file.part⟩, by rw [h1, h3]; exact h.folder⟩

theorem extractTar_spec {parse : Bytes → Option (List Member)} {content : String → Bytes} {members : String → List Member} {p : String × String} {d : Disk}
    (hparse : parse (content p.1) = some (members p.1)) (htop : ∀ m ∈ members p.1, m.top = p.2) (hne : p.1 ≠ p.2 ∧ tempPath p.1 ≠ p.1 ∧ tempPath p.1 ≠ p.2)
    (hd : PairOk content members p d) (hf : d p.1 = some (.file (content p.1))) (hF : d p.2 = none) :
    (∀ d', (extractTar parse d p.1).leaves d' → PairOk content members p d' ∧ ∀ x, x ≠ p.1 → x ≠ p.2 → d' x = d x) ∧
    ∀ name, (extractTar parse d p.1).result = .ok name →
      (extractTar parse d p.1).final p.2 = some (.folder (allOf (members p.1))) ∧ (members p.1).head?.map Member.name = some name := by
  obtain ⟨e1, e2, e3⟩ := extract_spec (F := p.2) (members p.1) d [] (.inl ⟨hF, rfl⟩) htop
  have ed : extractTar parse d p.1 = (extractMembers d (members p.1)).bind fun d' _ =>
      match members p.1 with | [] => ⟨[], d', .error .index⟩ | m :: _ => ⟨[], d'.set p.1 none, .ok m.name⟩ := by
    unfold extractTar
    rw [hf]
    dsimp only
    rw [hparse]
    rfl
  have step : ∀ d', (extractMembers d (members p.1)).leaves d' → PairOk content members p d' ∧ ∀ x, x ≠ p.1 → x ≠ p.2 → d' x = d x := by
    intro d' h
    rcases e1 d' h with rfl | ⟨k, hk, b, rfl⟩
    · exact ⟨hd, fun _ _ _ => rfl⟩
    · refine ⟨⟨⟨.inr (by rw [set_ne _ _ hne.1, hf]), ?_⟩, .inr (.inr ⟨by rw [set_ne _ _ hne.1, hf], k, hk, b, by rw [set_same]; rfl⟩)⟩, fun x _ hx => set_ne _ _ hx⟩
      rw [set_ne _ _ hne.2.2]
      exact hd.file.part
  rw [ed]
  refine ⟨fun d' h => ?_, fun name h => ?_⟩
  · rcases leaves_bind h with h | ⟨a, _, h⟩
    · exact step d' h
    · cases hm : members p.1 with
      | nil =>
        rw [hm] at h
        rcases h with h | h
        · cases h
        · rw [hm] at step; exact step d' (.inr h)
      | cons m ms =>
        rw [hm] at h e3
        rcases h with h | h
        · cases h
        · have h' : d' = (d.set p.2 (some (.folder (allOf (members p.1))))).set p.1 none := by
            rw [h, hm, e3, if_neg (by simp)]; rfl
          rw [h']
          refine ⟨⟨⟨.inl (set_same _ _ _), ?_⟩, .inr (.inl (by rw [set_ne _ _ hne.1.symm, set_same]))⟩, fun x h1 h2 => by rw [set_ne _ _ h1, set_ne _ _ h2]⟩
          rw [set_ne _ _ hne.2.1, set_ne _ _ hne.2.2]
          exact hd.file.part
  · obtain ⟨a, _, h2, h3⟩ := bind_ok h
    rw [h3]
    cases hm : members p.1 with
    | nil => rw [hm] at h2; cases h2
    | cons m ms =>
      rw [hm] at h2 e3
      cases h2
      refine ⟨?_, rfl⟩
      show Disk.set _ _ _ _ = _
      rw [set_ne _ _ hne.1.symm, e3, if_neg (by simp), set_same]
      rfl

theorem loop_spec {C : Conf} {parse : Bytes → Option (List Member)} {content : String → Bytes} {members : String → List Member} {pairs : List (String × String)}
    (hA : Archives parse content members pairs) (hD : Distinct pairs) {server : String → Option ℕ → Reply} (hs : ∀ p ∈ pairs, Honest (content p.1) (server p.1)) :
    ∀ (qs : List (String × String)), (∀ q ∈ qs, q ∈ pairs) → ∀ d, (∀ p ∈ pairs, PairOk content members p d) →
      (∀ d', (downloadLoop C server parse d qs).leaves d' → (∀ p ∈ pairs, PairOk content members p d') ∧ ∀ p ∈ pairs, ∀ n, d p.2 = some n → d' p.2 = some n) ∧
      ∀ names, (downloadLoop C server parse d qs).result = .ok names →
        (∀ q ∈ qs, d q.2 = none → (downloadLoop C server parse d qs).final q.2 = some (.folder (allOf (members q.1)))) ∧
        ((∀ q ∈ qs, (members q.1).head?.map Member.name = some q.2) → names = qs.map Prod.snd)
  | [], _, d, hd => by
    refine ⟨fun d' h => ?_, fun names h => ⟨by simp, fun _ => by cases h; rfl⟩⟩
    rcases h with h | h
    · cases h
    · rw [h]; exact ⟨hd, fun _ _ _ hn => hn⟩
  | q :: qs, hq, d, hd => by
    have hqp : q ∈ pairs := hq q (by simp)
    have hqs : ∀ r ∈ qs, r ∈ pairs := fun r hr => hq r (by simp [hr])
    cases hF : d q.2 with
    | some n0 =>
      have ed : downloadLoop C server parse d (q :: qs) = (downloadLoop C server parse d qs).bind fun d3 names => ⟨[], d3, .ok (q.2 :: names)⟩ := by
        obtain ⟨f, F⟩ := q
        rw [downloadLoop]
        dsimp only at hF ⊢
        rw [hF]
      obtain ⟨i1, i2⟩ := loop_spec hA hD hs qs hqs d hd
      rw [ed]
      refine ⟨fun d' h => ?_, fun names h => ?_⟩
      · rcases leaves_bind h with h | ⟨a, _, h⟩
        · exact i1 d' h
        · rcases h with h | h
          · cases h
          · exact i1 d' (.inr h)
      · obtain ⟨a, h1, h2, h3⟩ := bind_ok h
        obtain ⟨j1, j2⟩ := i2 a h1
        cases h2
        rw [h3]
        refine ⟨fun r hr hn => ?_, fun hn => by rw [j2 fun r hr => hn r (by simp [hr])]; rfl⟩
        rcases List.mem_cons.1 hr with rfl | hr
        · rw [hF] at hn; cases hn
        · exact j1 r hr hn
    | none =>
      obtain ⟨ne1, ne2, ne3⟩ := hD.1 q hqp
      have ed : downloadLoop C server parse d (q :: qs) = (download C (server q.1) d q.1).bind fun d1 path => (extractTar parse d1 path).bind fun d2 name =>
          (downloadLoop C server parse d2 qs).bind fun d3 names => ⟨[], d3, .ok (name :: names)⟩ := by
        obtain ⟨f, F⟩ := q
        rw [downloadLoop]
        dsimp only at hF ⊢
        rw [hF]
      have dl : ∀ d', (download C (server q.1) d q.1).leaves d' → (∀ p ∈ pairs, PairOk content members p d') ∧ (∀ p ∈ pairs, d' p.2 = d p.2) := by
        intro d' h
        obtain ⟨k1, k2, _⟩ := download_leaves ne2 (hd q hqp).file (hs q hqp) h
        have kF : d' q.2 = d q.2 := k2 _ ne1.symm ne3.symm
        refine ⟨fun p hp => ?_, fun p hp => ?_⟩
        · by_cases hpq : p = q
          · subst hpq
            exact ⟨k1, .inl (kF.trans hF)⟩
          · obtain ⟨a1, a2, a3, a4, a5, a6⟩ := hD.2 q hqp p hp (Ne.symm hpq)
            obtain ⟨b1, b2, b3, b4, b5, b6⟩ := hD.2 p hp q hqp hpq
            exact pairOk_frame (hd p hp) (k2 _ b1 a5.symm) (k2 _ b5 b4) (k2 _ a2.symm a6.symm)
        · by_cases hpq : p = q
          · subst hpq; exact kF
          · obtain ⟨a1, a2, a3, a4, a5, a6⟩ := hD.2 q hqp p hp (Ne.symm hpq)
            exact k2 _ a2.symm a6.symm
      have after : ∀ path, (download C (server q.1) d q.1).result = .ok path → path = q.1 ∧ (download C (server q.1) d q.1).final q.1 = some (.file (content q.1)) := by
        intro path hp
        obtain ⟨h1, n, h2, _⟩ := download_ok hp
        have := ((dl _ (leaves_final _)).1 q hqp).file.file
        rw [h2] at this
        rcases this with h3 | h3
        · cases h3
        · exact ⟨h1, by rw [h2, h3]⟩
      have ex : ∀ path, (download C (server q.1) d q.1).result = .ok path →
          (∀ d', (extractTar parse (download C (server q.1) d q.1).final path).leaves d' → (∀ p ∈ pairs, PairOk content members p d') ∧ (∀ p ∈ pairs, p ≠ q → d' p.2 = d p.2)) ∧
          ∀ name, (extractTar parse (download C (server q.1) d q.1).final path).result = .ok name →
            (extractTar parse (download C (server q.1) d q.1).final path).final q.2 = some (.folder (allOf (members q.1))) ∧
              (members q.1).head?.map Member.name = some name := by
        intro path hp
        obtain ⟨rfl, hfile⟩ := after path hp
        obtain ⟨dl1, dl2⟩ := dl _ (leaves_final _)
        obtain ⟨x1, x2⟩ := extractTar_spec (hA.parse q hqp) (hA.top q hqp) ⟨ne1, ne2, ne3⟩ (dl1 q hqp) hfile ((dl2 q hqp).trans hF)
        refine ⟨fun d' h => ?_, x2⟩
        obtain ⟨y1, y2⟩ := x1 d' h
        refine ⟨fun p hp => ?_, fun p hp hpq => ?_⟩
        · by_cases hpq : p = q
          · rw [hpq]; exact y1
          · obtain ⟨a1, a2, a3, a4, a5, a6⟩ := hD.2 q hqp p hp (Ne.symm hpq)
            obtain ⟨b1, b2, b3, b4, b5, b6⟩ := hD.2 p hp q hqp hpq
            exact pairOk_frame (dl1 p hp) (y2 _ b1 b2) (y2 _ b5 b6) (y2 _ a2.symm b3)
        · obtain ⟨a1, a2, a3, a4, a5, a6⟩ := hD.2 q hqp p hp (Ne.symm hpq)
          obtain ⟨b1, b2, b3, b4, b5, b6⟩ := hD.2 p hp q hqp hpq
          rw [y2 _ a2.symm b3, dl2 p hp]
      rw [ed]
      refine ⟨fun d' h => ?_, fun names h => ?_⟩
      · rcases leaves_bind h with h | ⟨path, hp, h⟩
        · obtain ⟨k1, k2⟩ := dl d' h
          exact ⟨k1, fun p hp n hn => by rw [k2 p hp, hn]⟩
        · obtain ⟨x1, x2⟩ := ex path hp
          have fin1 : ∀ d' : Disk, (∀ p ∈ pairs, p ≠ q → d' p.2 = d p.2) → ∀ p ∈ pairs, ∀ n, d p.2 = some n → d' p.2 = some n := by
            intro d' h p hp n hn
            by_cases hpq : p = q
            · rw [hpq, hF] at hn; cases hn
            · rw [h p hp hpq, hn]
          rcases leaves_bind h with h | ⟨name, hn, h⟩
          · obtain ⟨k1, k2⟩ := x1 d' h
            exact ⟨k1, fin1 d' k2⟩
          · obtain ⟨k1, k2⟩ := x1 _ (leaves_final _)
            obtain ⟨i1, _⟩ := loop_spec hA hD hs qs hqs _ k1
            have fin2 : (downloadLoop C server parse (extractTar parse (download C (server q.1) d q.1).final path).final qs).leaves d' →
                (∀ p ∈ pairs, PairOk content members p d') ∧ ∀ p ∈ pairs, ∀ n, d p.2 = some n → d' p.2 = some n := fun h => by
              obtain ⟨j1, j2⟩ := i1 d' h
              exact ⟨j1, fun p hp n hn => j2 p hp n (fin1 _ k2 p hp n hn)⟩
            rcases leaves_bind h with h | ⟨a, _, h⟩
            · exact fin2 h
            · rcases h with h | h
              · cases h
              · exact fin2 (.inr h)
      · obtain ⟨path, hp, h2, h3⟩ := bind_ok h
        obtain ⟨name, hn, h4, h5⟩ := bind_ok h2
        obtain ⟨rest, hr, h6, h7⟩ := bind_ok h4
        cases h6
        obtain ⟨x1, x2⟩ := ex path hp
        obtain ⟨y1, y2⟩ := x2 name hn
        obtain ⟨k1, k2⟩ := x1 _ (leaves_final _)
        obtain ⟨i1, i2⟩ := loop_spec hA hD hs qs hqs _ k1
        obtain ⟨j1, j2⟩ := i2 rest hr
        rw [h3, h5, h7]
        refine ⟨fun r hr hnone => ?_, fun hh => ?_⟩
        · show (downloadLoop C server parse _ qs).final r.2 = _
          by_cases hrq : r = q
          · subst hrq
            exact (i1 _ (leaves_final _)).2 r hqp _ y1
          · have hr' : r ∈ qs := (List.mem_cons.1 hr).resolve_left hrq
            exact j1 r hr' (by rw [k2 r (hqs r hr') hrq, hnone])
        · have := hh q (by simp)
          rw [y2] at this
          cases this
          rw [j2 fun r hr => hh r (by simp [hr])]
          rfl

theorem runs_ok {C : Conf} {parse : Bytes → Option (List Member)} {content : String → Bytes} {members : String → List Member} {pairs : List (String × String)}
    (hA : Archives parse content members pairs) (hD : Distinct pairs) {d0 d : Disk} (h0 : ∀ p ∈ pairs, PairOk content members p d0)
    (h : Runs C parse content pairs d0 d) : ∀ p ∈ pairs, PairOk content members p d := by
  induction h with
  | start => exact h0
  | run _ hs hl ih =>
    have := (loop_spec (C := C) hA hD hs pairs (fun _ h => h) _ ih).1
    unfold downloadDataset at hl
    rcases leaves_bind hl with hl | ⟨a, _, hl⟩
    · exact (this _ hl).1
    · rcases hl with hl | hl
      · cases hl
      · exact (this _ (.inr hl)).1

/-- C80. Everything that any number of runs of `download_dataset`, each ended by return, exception or kill, can leave of each pair of an archive and a directory: the
archive is absent or complete; the temporary file is absent or a prefix; the directory is absent or complete, or it is incomplete (its members up to some `k`,
the last of them perhaps truncated) and its archive is still there. So a directory without its archive is complete. -/
theorem C80_dataset_states (C : Conf) (parse : Bytes → Option (List Member)) (content : String → Bytes) (members : String → List Member)
    (pairs : List (String × String)) (hA : Archives parse content members pairs) (hD : Distinct pairs) (d0 d : Disk)
    (h0 : ∀ p ∈ pairs, d0 p.1 = none ∧ d0 (tempPath p.1) = none ∧ d0 p.2 = none) (h : Runs C parse content pairs d0 d) (p : String × String) (hp : p ∈ pairs) :
    (d p.1 = none ∨ d p.1 = some (.file (content p.1))) ∧
    (d (tempPath p.1) = none ∨ ∃ q, q <+: content p.1 ∧ d (tempPath p.1) = some (.file q)) ∧
    (d p.2 = none ∨ d p.2 = some (.folder (allOf (members p.1))) ∨ d p.1 = some (.file (content p.1)) ∧ ∃ k, ∃ hk : k < (members p.1).length, ∃ b : Bool,
      d p.2 = some (.folder (allOf ((members p.1).take k) ++ [(((members p.1)[k]).rest, b)]))) ∧
    (d p.1 = none → d p.2 ≠ none → d p.2 = some (.folder (allOf (members p.1)))) := by
  have H := runs_ok hA hD (fun p hp => ⟨⟨.inl (h0 p hp).1, .inl (h0 p hp).2.1⟩, .inl (h0 p hp).2.2⟩) h p hp
  refine ⟨H.file.file, H.file.part, H.folder, fun h1 h2 => ?_⟩
  rcases H.folder with h3 | h3 | ⟨h3, _⟩
  · exact absurd h3 h2
  · exact h3
  · rw [h1] at h3; cases h3

/-- C80. If no directory is incomplete, a run that returns leaves all of them complete, and, if every archive starts with the entry of its directory, returns their
names. -/
theorem C80_dataset_complete (C : Conf) (parse : Bytes → Option (List Member)) (content : String → Bytes) (members : String → List Member)
    (pairs : List (String × String)) (hA : Archives parse content members pairs) (hD : Distinct pairs) (d0 d : Disk)
    (h0 : ∀ p ∈ pairs, d0 p.1 = none ∧ d0 (tempPath p.1) = none ∧ d0 p.2 = none) (h : Runs C parse content pairs d0 d)
    (hclean : ∀ p ∈ pairs, d p.2 = none ∨ d p.2 = some (.folder (allOf (members p.1)))) (server : String → Option ℕ → Reply) (labels : Bool)
    (hs : ∀ p ∈ pairs, Honest (content p.1) (server p.1)) (names : List String) (hok : (downloadDataset C server labels parse d pairs).result = .ok names) :
    (∀ p ∈ pairs, (downloadDataset C server labels parse d pairs).final p.2 = some (.folder (allOf (members p.1)))) ∧
    ((∀ p ∈ pairs, (members p.1).head?.map Member.name = some p.2) → names = pairs.map Prod.snd) := by
  have H := runs_ok hA hD (fun p hp => ⟨⟨.inl (h0 p hp).1, .inl (h0 p hp).2.1⟩, .inl (h0 p hp).2.2⟩) h
  obtain ⟨l1, l2⟩ := loop_spec (C := C) hA hD hs pairs (fun _ h => h) d H
  unfold downloadDataset at hok ⊢
  obtain ⟨a, h1, h2, h3⟩ := bind_ok hok
  rw [h3]
  obtain ⟨j1, j2⟩ := l2 a h1
  have ha : a = names := by
    dsimp only at h2
    split_ifs at h2
    exact Except.ok.inj h2
  subst ha
  refine ⟨fun p hp => ?_, j2⟩
  show (downloadLoop C server parse d pairs).final p.2 = _
  rcases hclean p hp with h | h
  · exact j1 p hp h
  · exact (l1 _ (leaves_final _)).2 p hp _ h

theorem loop_existing (C : Conf) (server : String → Option ℕ → Reply) (parse : Bytes → Option (List Member)) (d : Disk) :
    ∀ pairs : List (String × String), (∀ p ∈ pairs, d p.2 ≠ none) →
      (downloadLoop C server parse d pairs).result = .ok (pairs.map Prod.snd) ∧ (downloadLoop C server parse d pairs).final = d
  | [], _ => ⟨rfl, rfl⟩
  | (f, F) :: rest, h => by
    obtain ⟨i1, i2⟩ := loop_existing C server parse d rest fun p hp => h p (by simp [hp])
    have hF := h (f, F) (by simp)
    cases hq : d F with
    | none => exact absurd hq hF
    | some n =>
      rw [downloadLoop]
      simp only [hq, Run.bind, i1, i2]
      exact ⟨rfl, trivial⟩

/-- C80, finding. Directories that exist are not looked into. For every archive that is not empty, a run that is killed while it unpacks leaves a directory with one truncated
entry, and every later run returns this directory as if it were complete, without asking the server and without changing anything. -/
theorem C80_incomplete_accepted (C : Conf) (parse : Bytes → Option (List Member)) (f F : String) (content : Bytes) (m : Member) (ms : List Member)
    (hparse : parse content = some (m :: ms)) (htop : ∀ x ∈ m :: ms, x.top = F) (hv : verify C f (.file content) = .ok ()) (hne : f ≠ F ∧ tempPath f ≠ f ∧ tempPath f ≠ F)
    (d0 : Disk) (h0 : d0 f = none ∧ d0 (tempPath f) = none ∧ d0 F = none) :
    ∃ d, Runs C parse (fun _ => content) [(f, F)] d0 d ∧ d F = some (.folder [(m.rest, false)]) ∧
      ∀ server, (downloadDataset C server true parse d [(f, F)]).result = .ok [F] ∧ (downloadDataset C server true parse d [(f, F)]).final = d := by
  obtain ⟨h1, h2, h3⟩ := h0
  obtain ⟨d1, hd1⟩ : ∃ d1, d1 = ((d0.set (tempPath f) (some (.file content))).set (tempPath f) none).set f (some (.file content)) := ⟨_, rfl⟩
  have d1f : d1 f = some (.file content) := by rw [hd1, set_same]
  have d1F : d1 F = none := by rw [hd1, set_ne _ _ hne.1.symm, set_ne _ _ hne.2.2.symm, set_ne _ _ hne.2.2.symm, h3]
  have edl : (download C (fun _ => .answer 200 content false) d0 f).result = .ok f ∧ (download C (fun _ => .answer 200 content false) d0 f).final = d1 := by
    unfold download
    rw [h1]
    dsimp only
    rw [h2]
    simp [fetch, hv, Except.map, hd1]
  have d2F : (d1.set F (some (.folder [(m.rest, false)]))) F = some (.folder [(m.rest, false)]) := set_same _ _ _
  refine ⟨d1.set F (some (.folder [(m.rest, false)])), .run (server := fun _ _ => .answer 200 content false) (labels := true) .start ?_ ?_, d2F, fun server => ?_⟩
  · intro p _ range status body broken h
    cases h
    exact .inr ⟨content, List.prefix_refl _, fun _ => rfl, .inl ⟨by decide, rfl⟩⟩
  · have hext : d1.set F (some (.folder [(m.rest, false)])) ∈ (extractTar parse d1 f).trace := by
      unfold extractTar
      rw [d1f]
      dsimp only
      rw [hparse]
      dsimp only
      have hm : m.top = F := htop m (by simp)
      have e : d1.set F (some (.folder [(m.rest, false)])) ∈ (extractMembers d1 (m :: ms)).trace := by
        rw [extractMembers, hm]
        simp only [d1F]
        simp
      unfold Run.bind
      cases (extractMembers d1 (m :: ms)).result with
      | error _ => exact e
      | ok _ => exact List.mem_append_left _ e
    have hb : ∀ {α β : Type} (r : Run α) (k : Disk → α → Run β) (x : Disk), x ∈ r.trace → x ∈ (r.bind k).trace := by
      intro α β r k x hx
      unfold Run.bind
      cases r.result with
      | error _ => exact hx
      | ok _ => exact List.mem_append_left _ hx
    left
    unfold downloadDataset
    apply hb
    rw [downloadLoop]
    simp only [h3]
    unfold Run.bind
    rw [edl.1]
    dsimp only
    rw [edl.2]
    refine List.mem_append_right _ (List.mem_cons_of_mem _ ?_)
    cases (extractTar parse d1 f).result with
    | error _ => exact hext
    | ok _ => exact List.mem_append_left _ hext
  · obtain ⟨i1, i2⟩ := loop_existing C server parse (d1.set F (some (.folder [(m.rest, false)]))) [(f, F)] (by simp [d2F])
    unfold downloadDataset Run.bind
    rw [i1]
    exact ⟨rfl, i2⟩

/-- C80, finding. `_extract_tar` returns the name of the first member of the archive. If the archive does not start with the entry of its directory, the run that
downloads returns another name than later runs do, which is then searched for samples in vain. -/
theorem C80_first_name (C : Conf) (parse : Bytes → Option (List Member)) (f F : String) (content : Bytes) (m : Member) (ms : List Member)
    (hparse : parse content = some (m :: ms)) (htop : ∀ x ∈ m :: ms, x.top = F) (hv : verify C f (.file content) = .ok ()) (hne : f ≠ F ∧ tempPath f ≠ f ∧ tempPath f ≠ F)
    (d0 : Disk) (h0 : d0 f = none ∧ d0 (tempPath f) = none ∧ d0 F = none) :
    (downloadDataset C (fun _ _ => .answer 200 content false) true parse d0 [(f, F)]).result = .ok [m.name] ∧
    ∀ server, (downloadDataset C server true parse (downloadDataset C (fun _ _ => .answer 200 content false) true parse d0 [(f, F)]).final [(f, F)]).result = .ok [F] := by
  obtain ⟨h1, h2, h3⟩ := h0
  obtain ⟨d1, hd1⟩ : ∃ d1, d1 = ((d0.set (tempPath f) (some (.file content))).set (tempPath f) none).set f (some (.file content)) := ⟨_, rfl⟩
  have d1f : d1 f = some (.file content) := by rw [hd1, set_same]
  have d1F : d1 F = none := by rw [hd1, set_ne _ _ hne.1.symm, set_ne _ _ hne.2.2.symm, set_ne _ _ hne.2.2.symm, h3]
  have edl : (download C (fun _ => .answer 200 content false) d0 f).result = .ok f ∧ (download C (fun _ => .answer 200 content false) d0 f).final = d1 := by
    unfold download
    rw [h1]
    dsimp only
    rw [h2]
    simp [fetch, hv, Except.map, hd1]
  obtain ⟨_, e2, e3⟩ := extract_spec (F := F) (m :: ms) d1 [] (.inl ⟨d1F, rfl⟩) htop
  rw [if_neg (by simp)] at e3
  have eex : (extractTar parse d1 f).result = .ok m.name ∧ (extractTar parse d1 f).final = (d1.set F (some (.folder (allOf (m :: ms))))).set f none := by
    unfold extractTar
    rw [d1f]
    dsimp only
    rw [hparse]
    dsimp only
    unfold Run.bind
    rw [e2]
    dsimp only
    rw [e3]
    exact ⟨rfl, rfl⟩
  have el : (downloadLoop C (fun _ _ => .answer 200 content false) parse d0 [(f, F)]).result = .ok [m.name] ∧
      (downloadLoop C (fun _ _ => .answer 200 content false) parse d0 [(f, F)]).final = (d1.set F (some (.folder (allOf (m :: ms))))).set f none := by
    rw [downloadLoop]
    simp only [h3, Run.bind, edl.1, edl.2, eex.1, eex.2, downloadLoop]
    exact ⟨trivial, trivial⟩
  have ed : (downloadDataset C (fun _ _ => .answer 200 content false) true parse d0 [(f, F)]).result = .ok [m.name] ∧
      (downloadDataset C (fun _ _ => .answer 200 content false) true parse d0 [(f, F)]).final = (d1.set F (some (.folder (allOf (m :: ms))))).set f none := by
    unfold downloadDataset Run.bind
    rw [el.1]
    exact ⟨rfl, el.2⟩
  refine ⟨ed.1, fun server => ?_⟩
  rw [ed.2]
  obtain ⟨i1, i2⟩ := loop_existing C server parse ((d1.set F (some (.folder (allOf (m :: ms))))).set f none) [(f, F)] (by
    simp [set_ne _ _ hne.1.symm, set_same])
  unfold downloadDataset Run.bind
  rw [i1]
  rfl

/-! ### Conversion -/

theorem convertLoop_spec (good : String → Bool) (file : String) (total : ℕ) : ∀ (samples : List String) (d : Disk) (k : ℕ), d file = some (.h5 total k false) →
    k + samples.length = total →
    (∀ d', (convertLoop good file total d k samples).leaves d' → (∃ j st, d' file = some (.h5 total j st) ∧ j ≤ total ∧ (st = true → j = total)) ∧
      ∀ q, q ≠ file → d' q = d q) ∧
    (convertLoop good file total d k samples).result = (if samples.all good then .ok file else .error .sample) ∧
    (convertLoop good file total d k samples).final file = some (.h5 total (k + (samples.takeWhile good).length) (samples.all good))
  | [], d, k, hd, hk => by
    simp only [List.length_nil, Nat.add_zero] at hk
    refine ⟨fun d' h => ?_, rfl, by simp [convertLoop, set_same]⟩
    rcases h with h | h
    · simp only [convertLoop, List.mem_singleton] at h
      rw [h]
      exact ⟨⟨k, false, hd, by omega, by simp⟩, fun _ _ => rfl⟩
    · rw [h]
      exact ⟨⟨k, true, set_same _ _ _, by omega, fun _ => hk⟩, fun q hq => set_ne _ _ hq⟩
  | s :: rest, d, k, hd, hk => by
    simp only [List.length_cons] at hk
    by_cases hg : good s = true
    · obtain ⟨i1, i2, i3⟩ := convertLoop_spec good file total rest (d.set file (some (.h5 total (k + 1) false))) (k + 1) (set_same _ _ _) (by omega)
      have e : convertLoop good file total d k (s :: rest) = ⟨d :: (convertLoop good file total (d.set file (some (.h5 total (k + 1) false))) (k + 1) rest).trace,
          (convertLoop good file total (d.set file (some (.h5 total (k + 1) false))) (k + 1) rest).final,
          (convertLoop good file total (d.set file (some (.h5 total (k + 1) false))) (k + 1) rest).result⟩ := by
        rw [convertLoop, if_pos hg]
      rw [e]
      refine ⟨fun d' h => ?_, ?_, ?_⟩
      · have fin : (convertLoop good file total (d.set file (some (.h5 total (k + 1) false))) (k + 1) rest).leaves d' → _ := fun h => by
          obtain ⟨j1, j2⟩ := i1 d' h
          exact (⟨j1, fun q hq => (j2 q hq).trans (set_ne _ _ hq)⟩ : (∃ j st, d' file = some (.h5 total j st) ∧ j ≤ total ∧ (st = true → j = total)) ∧
            ∀ q, q ≠ file → d' q = d q)
        rcases h with h | h
        · rcases List.mem_cons.1 h with rfl | h
          · exact ⟨⟨k, false, hd, by omega, by simp⟩, fun _ _ => rfl⟩
          · exact fin (.inl h)
        · exact fin (.inr h)
      · show (convertLoop good file total (d.set file (some (.h5 total (k + 1) false))) (k + 1) rest).result = _
        rw [i2]
        simp [hg]
      · show (convertLoop good file total (d.set file (some (.h5 total (k + 1) false))) (k + 1) rest).final file = _
        rw [i3, List.takeWhile_cons, if_pos hg]
        simp [hg]
        omega
    · have e : convertLoop good file total d k (s :: rest) = ⟨[], d, .error .sample⟩ := by rw [convertLoop, if_neg hg]
      rw [e]
      refine ⟨fun d' h => ?_, by simp [hg], ?_⟩
      · rcases h with h | h
        · cases h
        · rw [h]; exact ⟨⟨k, false, hd, by omega, by simp⟩, fun _ _ => rfl⟩
      · show d file = _
        rw [hd, List.takeWhile_cons, if_neg hg]
        simp [hg]

/-- The samples in the directories. -/
def samplesOf (scan : List (String × Bool) → List String) (d : Disk) (folders : List String) : List String :=
  folders.flatMap fun f => match d f with | some (.folder ms) => scan ms | _ => []

/-- C80. Conversion. It returns if there are samples and all can be read; then the file holds all of them and the statistics. Otherwise it raises; if the `i`-th
sample is the first that cannot be read, the file stays, with `i` samples and without statistics. A killed conversion leaves no file or such an incomplete one. -/
theorem C80_convert (scan : List (String × Bool) → List String) (good : String → Bool) (d : Disk) (folders : List String) (file : String) (hd : d file = none) :
    (samplesOf scan d folders = [] → (convertDataset scan good d folders file).result = .error .value ∧ (convertDataset scan good d folders file).final = d) ∧
    (samplesOf scan d folders ≠ [] → (samplesOf scan d folders).all good = true → (convertDataset scan good d folders file).result = .ok file ∧
      (convertDataset scan good d folders file).final file = some (.h5 (samplesOf scan d folders).length (samplesOf scan d folders).length true)) ∧
    (samplesOf scan d folders ≠ [] → (samplesOf scan d folders).all good = false → (convertDataset scan good d folders file).result = .error .sample ∧
      (convertDataset scan good d folders file).final file = some (.h5 (samplesOf scan d folders).length ((samplesOf scan d folders).takeWhile good).length false)) ∧
    ∀ d', (convertDataset scan good d folders file).leaves d' → (∀ q, q ≠ file → d' q = d q) ∧ (d' file = none ∨
      ∃ j st, d' file = some (.h5 (samplesOf scan d folders).length j st) ∧ j ≤ (samplesOf scan d folders).length ∧ (st = true → j = (samplesOf scan d folders).length)) := by
  obtain ⟨S, hS⟩ : ∃ S, S = samplesOf scan d folders := ⟨_, rfl⟩
  have e : convertDataset scan good d folders file = if S = [] then ⟨[], d, .error .value⟩ else
      ⟨d :: (convertLoop good file S.length (d.set file (some (.h5 S.length 0 false))) 0 S).trace, (convertLoop good file S.length (d.set file (some (.h5 S.length 0 false))) 0 S).final,
        (convertLoop good file S.length (d.set file (some (.h5 S.length 0 false))) 0 S).result⟩ := by
    rw [hS]; rfl
  obtain ⟨i1, i2, i3⟩ := convertLoop_spec good file S.length S (d.set file (some (.h5 S.length 0 false))) 0 (set_same _ _ _) (by omega)
  rw [← hS, e]
  refine ⟨fun h => by rw [if_pos h]; exact ⟨rfl, rfl⟩, fun h hg => ?_, fun h hg => ?_, fun d' h => ?_⟩
  · rw [if_neg h]
    refine ⟨by show (convertLoop _ _ _ _ _ _).result = _; rw [i2, if_pos hg], ?_⟩
    show (convertLoop _ _ _ _ _ _).final file = _
    rw [i3, hg]
    have : S.takeWhile good = S := List.takeWhile_eq_self_iff.2 fun a ha => List.all_eq_true.1 hg a ha
    rw [this, Nat.zero_add]
  · rw [if_neg h]
    refine ⟨by show (convertLoop _ _ _ _ _ _).result = _; rw [i2, hg]; rfl, ?_⟩
    show (convertLoop _ _ _ _ _ _).final file = _
    rw [i3, hg, Nat.zero_add]
  · by_cases hE : S = []
    · rw [if_pos hE] at h
      rcases h with h | h
      · cases h
      · rw [h]; exact ⟨fun _ _ => rfl, .inl hd⟩
    · rw [if_neg hE] at h
      have fin : (convertLoop good file S.length (d.set file (some (.h5 S.length 0 false))) 0 S).leaves d' → _ := fun h => by
        obtain ⟨j1, j2⟩ := i1 d' h
        exact (⟨fun q hq => (j2 q hq).trans (set_ne _ _ hq), .inr j1⟩ : (∀ q, q ≠ file → d' q = d q) ∧ (d' file = none ∨
          ∃ j st, d' file = some (.h5 S.length j st) ∧ j ≤ S.length ∧ (st = true → j = S.length)))
      rcases h with h | h
      · rcases List.mem_cons.1 h with rfl | h
        · exact ⟨fun _ _ => rfl, .inl hd⟩
        · exact fin (.inl h)
      · exact fin (.inr h)

/-- C80, finding. `prepare_dataset` returns any file that has the name of the data set, also one that a conversion which failed or was killed has left: for every
list of samples with one that cannot be read, the first call raises, and every later call returns the incomplete file. -/
theorem C80_prepare_incomplete (C : Conf) (server server' : String → Option ℕ → Reply) (labels : Bool) (parse : Bytes → Option (List Member))
    (scan : List (String × Bool) → List String) (good : String → Bool) (d : Disk) (pairs : List (String × String)) (file : String) (folders : List String)
    (hd : d file = none) (hfin : (downloadDataset C server labels parse d pairs).final file = none)
    (hdl : (downloadDataset C server labels parse d pairs).result = .ok folders)
    (hbad : (samplesOf scan (downloadDataset C server labels parse d pairs).final folders).all good = false) :
    (prepareDataset C server labels parse scan good d pairs file).result = .error .sample ∧
    (∃ total written, (prepareDataset C server labels parse scan good d pairs file).final file = some (.h5 total written false) ∧ written < total) ∧
    (prepareDataset C server' labels parse scan good (prepareDataset C server labels parse scan good d pairs file).final pairs file).result = .ok file ∧
    (prepareDataset C server' labels parse scan good (prepareDataset C server labels parse scan good d pairs file).final pairs file).final
      = (prepareDataset C server labels parse scan good d pairs file).final := by
  obtain ⟨S, hS⟩ : ∃ S, S = samplesOf scan (downloadDataset C server labels parse d pairs).final folders := ⟨_, rfl⟩
  rw [← hS] at hbad
  have hne : S ≠ [] := by rintro rfl; simp at hbad
  obtain ⟨_, _, c3, _⟩ := C80_convert scan good (downloadDataset C server labels parse d pairs).final folders file hfin
  rw [← hS] at c3
  obtain ⟨r1, r2⟩ := c3 hne hbad
  have e1 : (prepareDataset C server labels parse scan good d pairs file).result = .error .sample ∧ (prepareDataset C server labels parse scan good d pairs file).final
      = (convertDataset scan good (downloadDataset C server labels parse d pairs).final folders file).final := by
    unfold prepareDataset
    rw [hd]
    dsimp only
    unfold Run.bind
    rw [hdl]
    exact ⟨r1, rfl⟩
  have hlt : (S.takeWhile good).length < S.length := by
    have hle : (S.takeWhile good).length ≤ S.length := (List.takeWhile_prefix good).length_le
    rcases Nat.lt_or_ge (S.takeWhile good).length S.length with h | h
    · exact h
    · exfalso
      have : S.takeWhile good = S := (List.takeWhile_prefix good).eq_of_length (by omega)
      have hall : S.all good = true := List.all_eq_true.2 fun a ha => List.takeWhile_eq_self_iff.1 this a ha
      rw [hall] at hbad
      cases hbad
  have e2 : (prepareDataset C server labels parse scan good d pairs file).final file = some (.h5 S.length (S.takeWhile good).length false) := by rw [e1.2, r2]
  refine ⟨e1.1, ⟨_, _, e2, hlt⟩, ?_⟩
  obtain ⟨d1, hd1⟩ : ∃ d1, d1 = (prepareDataset C server labels parse scan good d pairs file).final := ⟨_, rfl⟩
  rw [← hd1] at e2 ⊢
  unfold prepareDataset
  rw [e2]
  exact ⟨rfl, rfl⟩

/-! ### Cases that meet the hypotheses -/

/-- C80. A file without a known checksum is accepted whatever it contains: one that is on the disk is returned without a request, and any complete answer is accepted. -/
theorem C80_unlisted (C : Conf) (f : String) (hC : C.checksums = none ∨ ∃ get, C.checksums = some get ∧ get f = none) (d : Disk) (server : Option ℕ → Reply) :
    (∀ n, d f = some n → (download C server d f).result = .ok f ∧ ∀ d', (download C server d f).leaves d' → d' = d) ∧
    (∀ body status, d f = none → d (tempPath f) = none → server none = .answer status body false → status < 400 →
      (download C server d f).result = .ok f ∧ (download C server d f).final f = some (.file body)) := by
  have hv : ∀ n, verify C f n = .ok () := by
    intro n
    unfold verify
    rcases hC with h | ⟨get, h, h'⟩
    · rw [h]
    · rw [h]; dsimp only; rw [h']
  refine ⟨fun n hn => ?_, fun body status h1 h2 h3 h4 => ?_⟩
  · unfold download
    rw [hn]
    refine ⟨by simp [hv, Except.map], fun d' h => ?_⟩
    rcases h with h | h
    · cases h
    · exact h
  · unfold download
    rw [h1]
    dsimp only
    rw [h2]
    dsimp only
    rw [h3]
    unfold fetch
    dsimp only
    rw [if_neg (by omega), if_neg (by simp), hv]
    exact ⟨rfl, by dsimp only; rw [set_same]; simp⟩

theorem takeWhile_stop {p : Char → Bool} (a b : List Char) (ha : ∀ c ∈ a, p c = true) (hb : b = [] ∨ ∃ c t, b = c :: t ∧ p c = false) : (a ++ b).takeWhile p = a := by
  rw [List.takeWhile_append_of_pos (by simpa using ha)]
  rcases hb with rfl | ⟨c, t, rfl, h⟩
  · simp
  · rw [List.takeWhile_cons_of_neg (by simp [h])]; simp

/-- C80. The temporary file: the last extension of the file name is replaced by `.part`; a name without extension, or with leading dots only, gets `.part` appended. -/
theorem C80_temporary_name (dir base ext : List Char) (hd : dir = [] ∨ ∃ t, dir = t ++ ['/']) (hb : ∀ c ∈ base, c ≠ '/') (he : ∀ c ∈ ext, c ≠ '/' ∧ c ≠ '.') :
    ((∃ c ∈ base, c ≠ '.') → tempPath (String.ofList (dir ++ base ++ '.' :: ext)) = String.ofList (dir ++ base) ++ ".part") ∧
    ((∀ c ∈ base, c = '.') → tempPath (String.ofList (dir ++ base ++ '.' :: ext)) = String.ofList (dir ++ base ++ '.' :: ext) ++ ".part") ∧
    ((∀ c ∈ base, c ≠ '.') → tempPath (String.ofList (dir ++ base)) = String.ofList (dir ++ base) ++ ".part") := by
  have hdr : dir.reverse = [] ∨ ∃ c t, dir.reverse = c :: t ∧ decide (c ≠ '/') = false := by
    rcases hd with rfl | ⟨t, rfl⟩
    · exact .inl rfl
    · exact .inr ⟨'/', t.reverse, by simp, by simp⟩
  have hrev : (dir ++ base ++ '.' :: ext).reverse = (ext.reverse ++ '.' :: base.reverse) ++ dir.reverse := by simp
  have hcomp : ((ext.reverse ++ '.' :: base.reverse) ++ dir.reverse).takeWhile (fun c => decide (c ≠ '/')) = ext.reverse ++ '.' :: base.reverse := by
    refine takeWhile_stop _ _ (fun c hc => ?_) hdr
    simp only [List.mem_append, List.mem_reverse, List.mem_cons] at hc
    rcases hc with hc | rfl | hc
    · simpa using (he c hc).1
    · decide
    · simpa using hb c hc
  have hext : (ext.reverse ++ '.' :: base.reverse).takeWhile (fun c => decide (c ≠ '.')) = ext.reverse := by
    refine takeWhile_stop _ _ (fun c hc => ?_) (.inr ⟨'.', base.reverse, rfl, by simp⟩)
    simpa using (he c (List.mem_reverse.1 hc)).2
  have hstem : (ext.reverse ++ '.' :: base.reverse).drop (ext.reverse.length + 1) = base.reverse := by
    rw [List.drop_append]; simp
  have hgen : splitextRev ((dir ++ base ++ '.' :: ext).reverse) = if (base.reverse.any (fun c => decide (c ≠ '.'))) = true then base.reverse ++ dir.reverse else (dir ++ base ++ '.' :: ext).reverse := by
    rw [hrev]
    unfold splitextRev
    simp only [hcomp, hext, hstem]
    have hlt : ext.reverse.length < (ext.reverse ++ '.' :: base.reverse).length := by simp
    simp only [hlt, true_and, List.drop_left']
  refine ⟨fun h => ?_, fun h => ?_, fun h => ?_⟩
  · unfold tempPath
    rw [String.toList_ofList, hgen, if_pos]
    · simp
    · obtain ⟨c, hc, hne⟩ := h
      simp only [List.any_eq_true, List.mem_reverse]
      exact ⟨c, hc, by simpa using hne⟩
  · unfold tempPath
    rw [String.toList_ofList, hgen, if_neg]
    · simp
    · simp only [List.any_eq_true, List.mem_reverse, not_exists, not_and]
      intro c hc
      simp [h c hc]
  · have h1 : (base.reverse ++ dir.reverse).takeWhile (fun c => decide (c ≠ '/')) = base.reverse :=
      takeWhile_stop _ _ (fun c hc => by simpa using hb c (List.mem_reverse.1 hc)) hdr
    have h2 : base.reverse.takeWhile (fun c => decide (c ≠ '.')) = base.reverse := by
      have := takeWhile_stop (p := fun c => decide (c ≠ '.')) base.reverse [] (fun c hc => by simpa using h c (List.mem_reverse.1 hc)) (.inl rfl)
      simpa using this
    unfold tempPath
    rw [String.toList_ofList, List.reverse_append]
    unfold splitextRev
    simp only [h1, h2]
    simp

example : tempPath "area_1_no_xyz.tar" = "area_1_no_xyz.part" := by decide
example : tempPath "data/.hidden" = "data/.hidden.part" := by decide
/-- Files that differ in the extension only share their temporary file. -/
example : tempPath "x.tar" = tempPath "x.zip" := by decide

/-- The names of the default data set are distinct. -/
example : Distinct [("area_1_no_xyz.tar", "area_1"), ("area_2_no_xyz.tar", "area_2"), ("area_3_no_xyz.tar", "area_3"), ("area_4_no_xyz.tar", "area_4"),
    ("area_5a_no_xyz.tar", "area_5a"), ("area_5b_no_xyz.tar", "area_5b"), ("area_6_no_xyz.tar", "area_6")] := by
  unfold Distinct
  decide

/-- A server that knows ranges and one whose connection breaks. -/
example (content : Bytes) : Honest content (fun r => match r with | none => .answer 200 content false | some s => .answer 206 (content.drop s) false) := by
  intro range status body broken h
  cases range with
  | none => cases h; exact .inr ⟨content, List.prefix_refl _, fun _ => rfl, .inl ⟨by decide, rfl⟩⟩
  | some s => cases h; exact .inr ⟨content.drop s, List.prefix_refl _, fun _ => rfl, .inr ⟨s, rfl, rfl, rfl⟩⟩
example (content : Bytes) (k : ℕ) : Honest content (fun _ => .answer 200 (content.take k) true) := by
  intro range status body broken h
  cases h
  exact .inr ⟨content, List.take_prefix _ _, by simp, .inl ⟨by decide, rfl⟩⟩

/-- Archives as in `Archives`. -/
example : Archives (fun b => if b = [1, 2] then some [⟨"area_1", ""⟩, ⟨"area_1", "pano/rgb/a.png"⟩] else none) (fun _ => [1, 2])
    (fun _ => [⟨"area_1", ""⟩, ⟨"area_1", "pano/rgb/a.png"⟩]) [("area_1_no_xyz.tar", "area_1")] :=
  ⟨fun p _ => by simp, fun p hp m hm => by
    simp only [List.mem_singleton] at hp
    subst hp
    simp only [List.mem_cons, List.not_mem_nil, or_false] at hm
    rcases hm with rfl | rfl <;> rfl⟩

end Verif.Props
