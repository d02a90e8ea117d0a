import Verif.Model.Truncation
import Verif.Spec.Truncation
/-!
Property theorems C01, C02 about `truncate_sht`.
-/
namespace Verif.Props
open Verif Verif.Truncation Verif.Spec

private theorem truncateLmax_cases (nlat : Int) (grid : String) :
    (∃ g, truncateLmax nlat grid = .ok g ∧ GridLimit grid nlat g) ∨
    (truncateLmax nlat grid = .error .valueError ∧ ¬ KnownGrid grid) := by
  unfold truncateLmax
  split
  · next h => subst h; exact .inl ⟨_, rfl, by simp [GridLimit]⟩
  · next h1 =>
    split
    · next h => subst h; exact .inl ⟨_, rfl, by simp [GridLimit]⟩
    · next h2 =>
      split
      · next h =>
        exact .inl ⟨_, rfl, .inr (.inr ⟨h, by omega⟩)⟩
      · next h3 =>
        refine .inr ⟨rfl, ?_⟩
        intro hk
        simp only [KnownGrid, List.mem_cons, List.not_mem_nil, or_false] at hk
        rcases hk with h | h | h | h
        · exact h1 h
        · exact h2 h
        · exact h3 (.inl h)
        · exact h3 (.inr h)

/-- C01 (success branch). Whatever `truncate_sht` returns is triangular, respects every bound the caller
gave, respects the documented default limit of every bound left out, and is attained by one of them
(so it is the largest such truncation). -/
theorem C01_truncation_sound (nlat nlon : Int) (lmax mmax : Option Int) (grid : String) (L M : Int)
    (h : truncateSht nlat nlon lmax mmax grid = .ok (L, M)) :
    L = M ∧
    ∃ bl bm : Int, L = min bl bm ∧
      (∀ v, Given lmax v → bl = v) ∧
      ((∀ v, ¬ Given lmax v) → GridLimit grid nlat bl) ∧
      (∀ v, Given mmax v → bm = v) ∧
      ((∀ v, ¬ Given mmax v) → 2 * (bm - 1) = nlon ∨ 2 * (bm - 1) = nlon - 1) := by
  have key : ∀ bl bm : Int, pyOr lmax (truncateLmax nlat grid) = .ok bl →
      pyOr mmax (.ok (truncateMmax nlon)) = .ok bm → L = min bl bm ∧ M = min bl bm := by
    intro bl bm h1 h2
    simp only [truncateSht, h1, h2, bind, Except.bind, pure, Except.pure, Except.ok.injEq,
      Prod.mk.injEq] at h
    exact ⟨h.1.symm, h.2.symm⟩
  cases hl : pyOr lmax (truncateLmax nlat grid) with
  | error e => simp [truncateSht, hl, bind, Except.bind] at h
  | ok bl =>
    cases hm : pyOr mmax (.ok (truncateMmax nlon)) with
    | error e => simp [truncateSht, hl, hm, bind, Except.bind] at h
    | ok bm =>
      obtain ⟨e1, e2⟩ := key bl bm hl hm
      refine ⟨by omega, bl, bm, e1, ?_, ?_, ?_, ?_⟩
      · rintro v ⟨rfl, hv⟩; simp [pyOr, hv] at hl; exact hl.symm
      · intro hn
        have : truncateLmax nlat grid = .ok bl := by
          cases lmax with
          | none => simpa [pyOr] using hl
          | some v =>
            by_cases hv : v = 0
            · simpa [pyOr, hv] using hl
            · exact absurd ⟨rfl, hv⟩ (hn v)
        rcases truncateLmax_cases nlat grid with ⟨g, hg, hlim⟩ | ⟨hg, _⟩
        · rw [this] at hg; cases hg; exact hlim
        · rw [this] at hg; cases hg
      · rintro v ⟨rfl, hv⟩; simp [pyOr, hv] at hm; exact hm.symm
      · intro hn
        have : truncateMmax nlon = bm := by
          cases mmax with
          | none => simpa [pyOr] using hm
          | some v =>
            by_cases hv : v = 0
            · simpa [pyOr, hv] using hm
            · exact absurd ⟨rfl, hv⟩ (hn v)
        subst this
        simp only [truncateMmax]; omega

/-- C01 (error branch). `truncate_sht` raises exactly when no usable `lmax` is given and the grid name is
unknown, and the exception is `ValueError`. In particular an unknown grid is accepted when `lmax` is given. -/
theorem C01_truncation_error_iff (nlat nlon : Int) (lmax mmax : Option Int) (grid : String) (e : PyErr) :
    truncateSht nlat nlon lmax mmax grid = .error e ↔
      e = .valueError ∧ (∀ v, ¬ Given lmax v) ∧ ¬ KnownGrid grid := by
  have hm : ∃ bm, pyOr mmax (.ok (truncateMmax nlon)) = .ok bm := by
    cases mmax with
    | none => exact ⟨_, rfl⟩
    | some v => by_cases hv : v = 0 <;> simp [pyOr, hv]
  obtain ⟨bm, hm⟩ := hm
  have hknown : ∀ g, GridLimit grid nlat g → KnownGrid grid := by
    rintro g (⟨rfl, -⟩ | ⟨rfl, -⟩ | ⟨rfl | rfl, -⟩) <;> simp [KnownGrid]
  constructor
  · intro h
    cases hl : pyOr lmax (truncateLmax nlat grid) with
    | ok bl => simp [truncateSht, hl, hm, bind, Except.bind, pure, Except.pure] at h
    | error e' =>
      have he : e' = e := by simpa [truncateSht, hl, bind, Except.bind] using h
      subst he
      have hn : ∀ v, ¬ Given lmax v := by
        rintro v ⟨rfl, hv⟩; simp [pyOr, hv] at hl
      have : truncateLmax nlat grid = .error e' := by
        cases lmax with
        | none => simpa [pyOr] using hl
        | some v =>
          by_cases hv : v = 0
          · simpa [pyOr, hv] using hl
          · exact absurd ⟨rfl, hv⟩ (hn v)
      rcases truncateLmax_cases nlat grid with ⟨g, hg, _⟩ | ⟨hg, hk⟩
      · rw [this] at hg; cases hg
      · rw [this] at hg; cases hg; exact ⟨rfl, hn, hk⟩
  · rintro ⟨rfl, hn, hk⟩
    have : truncateLmax nlat grid = .error .valueError := by
      rcases truncateLmax_cases nlat grid with ⟨g, _, hlim⟩ | ⟨hg, _⟩
      · exact absurd (hknown g hlim) hk
      · exact hg
    have hl : pyOr lmax (truncateLmax nlat grid) = .error .valueError := by
      cases lmax with
      | none => simpa [pyOr] using this
      | some v =>
        by_cases hv : v = 0
        · simpa [pyOr, hv] using this
        · exact absurd ⟨rfl, hv⟩ (hn v)
    simp [truncateSht, hl, bind, Except.bind]

/-- C02. With default arguments on a grid accepted by the transforms, products of two retained Legendre
functions (degree at most `2(L-1)`) are integrated exactly, every retained order is at most the Nyquist
order `nlon/2`, and the truncation keeps at least one mode. -/
theorem C02_default_truncation_resolvable (nlat nlon : Int) (grid : String) (L M d : Int)
    (hlat : 2 ≤ nlat) (hlon : 1 ≤ nlon) (hd : ExactDegree grid nlat d)
    (h : truncateSht nlat nlon none none grid = .ok (L, M)) :
    2 * (L - 1) ≤ d ∧ (∀ m, m < M → 2 * m ≤ nlon) ∧ 1 ≤ L := by
  obtain ⟨hLM, bl, bm, hL, -, hbl, -, hbm⟩ := C01_truncation_sound _ _ _ _ _ _ _ h
  have h1 := hbl (by rintro v ⟨h, -⟩; cases h)
  have h2 := hbm (by rintro v ⟨h, -⟩; cases h)
  refine ⟨?_, ?_, ?_⟩
  · rcases hd with ⟨rfl, rfl⟩ | ⟨rfl, rfl⟩ | ⟨rfl, rfl⟩ <;> simp [GridLimit] at h1 <;> omega
  · intro m hm; omega
  · rcases hd with ⟨rfl, rfl⟩ | ⟨rfl, rfl⟩ | ⟨rfl, rfl⟩ <;> simp [GridLimit] at h1 <;> omega

/-- The default call never fails on those grids (so C02 is not vacuous). -/
theorem C02_default_truncation_defined (nlat nlon : Int) (grid : String) (d : Int)
    (hd : ExactDegree grid nlat d) : ∃ L, truncateSht nlat nlon none none grid = .ok (L, L) := by
  cases h : truncateSht nlat nlon none none grid with
  | error e =>
    have := (C01_truncation_error_iff _ _ _ _ _ _).1 h
    exact absurd (by rcases hd with ⟨rfl, -⟩ | ⟨rfl, -⟩ | ⟨rfl, -⟩ <;> simp [KnownGrid]) this.2.2
  | ok p =>
    obtain ⟨L, M⟩ := p
    have := (C01_truncation_sound _ _ _ _ _ _ _ h).1
    subst this; exact ⟨L, rfl⟩

example : truncateSht 128 256 none none "equiangular" = .ok (64, 64) ∧
    ExactDegree "equiangular" 128 (128 - 1) := ⟨by rfl, by simp [ExactDegree]⟩
example : truncateSht 128 256 (some 0) (some 10) "lobatto" = .ok (10, 10) := by rfl
example : truncateSht 8 16 (some 5) none "no-such-grid" = .ok (5, 5) := by rfl
example : truncateSht 8 16 none none "no-such-grid" = .error .valueError := by rfl

end Verif.Props
