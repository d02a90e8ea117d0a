import Verif.Spec.LayoutCuda
import Verif.Lemmas.Arr
import Mathlib.Tactic.Ring
import Mathlib.Tactic.Linarith
/-!
The tiled transposes of the GPU: a common form of the two kernels, and what a launch of it leaves behind.
-/
namespace Verif.GpuLayout
open Verif Verif.Attn Finset

/-- The common form of the two kernels: an array of `nrow × ncol` numbers for every third index of a block, transposed. -/
def tileStep (X n nrow ncol : ℕ) (srcA dstA : ℕ → ℕ → ℕ → ℕ) (src : ℕ → ℝ) (s : Step) (m : Mem) : Except PyErr Mem :=
  if X ≤ nrow - s.bx * X ∧ X ≤ ncol - s.by' * X then
    if s.store = false then do
      let v ← rd n src (srcA s.bz (s.bx * X + s.j + s.ty) (s.by' * X + s.tx))
      wrTile X m (s.bx, s.by', s.bz) (s.j + s.ty) s.tx v
    else do
      let v ← rdTile X m (s.bx, s.by', s.bz) s.tx (s.j + s.ty)
      wrOut n m (dstA s.bz (s.bx * X + s.tx) (s.by' * X + s.j + s.ty)) v
  else
    if s.store = false then
      if s.by' * X + s.tx < ncol then do
        let v ← if s.bx * X + s.j + s.ty < nrow then rd n src (srcA s.bz (s.bx * X + s.j + s.ty) (s.by' * X + s.tx)) else .ok 0
        wrTile X m (s.bx, s.by', s.bz) (s.j + s.ty) s.tx v
      else .ok m
    else
      if s.bx * X + s.tx < nrow then
        if s.by' * X + s.j + s.ty < ncol then do
          let v ← rdTile X m (s.bx, s.by', s.bz) s.tx (s.j + s.ty)
          wrOut n m (dstA s.bz (s.bx * X + s.tx) (s.by' * X + s.j + s.ty)) v
        else .ok m
      else .ok m

theorem step0231_eq (X nb nchn nlat nlon : ℕ) (src : ℕ → ℝ) :
    step0231 X nb nchn nlat nlon src = tileStep X (nb * (nchn * (nlat * nlon))) nchn nlon
      (fun bz r c => flat [nb, nchn, nlat, nlon] [bz / nlat, r, bz - bz / nlat * nlat, c])
      (fun bz r c => flat [nb, nlat, nlon, nchn] [bz / nlat, bz - bz / nlat * nlat, c, r]) src := rfl

theorem step0312_eq (X nb nchn nlat nlon : ℕ) (src : ℕ → ℝ) :
    step0312 X nb nchn nlat nlon src = tileStep X (nb * (nlat * (nlon * nchn))) nlon nchn
      (fun bz r c => flat [nb, nlat, nlon, nchn] [bz / nlat, bz - bz / nlat * nlat, r, c])
      (fun bz r c => flat [nb, nchn, nlat, nlon] [bz / nlat, c, bz - bz / nlat * nlat, r]) src := by
  funext s m
  unfold step0312 tileStep
  dsimp only
  by_cases h : X ≤ nlon - s.bx * X ∧ X ≤ nchn - s.by' * X
  · rw [if_pos h, if_pos h.symm]
  · rw [if_neg h, if_neg (fun h' => h h'.symm)]

theorem tile_lt {X r c : ℕ} (hr : r < X) (hc : c < X) : r * (X + 1) + c < X * (X + 1) := by
  have : (r + 1) * (X + 1) ≤ X * (X + 1) := Nat.mul_le_mul_right _ hr
  nlinarith

theorem tile_inj {X r c r' c' : ℕ} (hc : c < X) (hc' : c' < X) (h : r * (X + 1) + c = r' * (X + 1) + c') : r = r' ∧ c = c' := by
  have h1 : (r * (X + 1) + c) / (X + 1) = r := by
    rw [mul_comm, Nat.mul_add_div (by omega), Nat.div_eq_of_lt (by omega), add_zero]
  have h2 : (r' * (X + 1) + c') / (X + 1) = r' := by
    rw [mul_comm, Nat.mul_add_div (by omega), Nat.div_eq_of_lt (by omega), add_zero]
  have h3 : r = r' := by rw [← h1, ← h2, h]
  subst h3
  exact ⟨rfl, by omega⟩

/-- The offset in the tile that an iteration works on is inside the tile. -/
theorem Step.Of.row_lt {X Y gx gy gz : ℕ} {s : Step} (hY : Y ∣ X) (h : s.Of X Y gx gy gz) : s.j + s.ty < X := by
  obtain ⟨_, _, _, _, h5, h6, h7⟩ := h
  obtain ⟨a, ha⟩ := hY
  obtain ⟨b, hb⟩ := h7
  rw [hb, ha] at h6
  have h8 : b < a := Nat.lt_of_mul_lt_mul_left h6
  rw [hb, ha]
  have : Y * (b + 1) ≤ Y * a := Nat.mul_le_mul_left _ h8
  nlinarith

section
variable {X Y n nrow ncol gx gy gz : ℕ} {srcA dstA : ℕ → ℕ → ℕ → ℕ} {src : ℕ → ℝ}

theorem tileStep_load (hY : Y ∣ X) (hS : ∀ z < gz, ∀ r < nrow, ∀ c < ncol, srcA z r c < n) {s : Step} (hs : s.Of X Y gx gy gz)
    (hst : s.store = false) (m : Mem) :
    tileStep X n nrow ncol srcA dstA src s m = .ok (if s.by' * X + s.tx < ncol then
      { m with sh := Function.update m.sh (s.bx, s.by', s.bz) (Function.update (m.sh (s.bx, s.by', s.bz)) ((s.j + s.ty) * (X + 1) + s.tx)
        (if s.bx * X + s.j + s.ty < nrow then src (srcA s.bz (s.bx * X + s.j + s.ty) (s.by' * X + s.tx)) else 0)) } else m) := by
  have hr := hs.row_lt hY
  obtain ⟨h1, h2, h3, h4, h5, h6, h7⟩ := hs
  have ht := tile_lt hr h4
  unfold tileStep
  by_cases hf : X ≤ nrow - s.bx * X ∧ X ≤ ncol - s.by' * X
  · have ha : s.bx * X + s.j + s.ty < nrow := by omega
    have hb : s.by' * X + s.tx < ncol := by omega
    rw [if_pos hf, if_pos hst, if_pos hb, if_pos ha, rd, if_pos (hS _ h3 _ ha _ hb)]
    show wrTile X m _ _ _ _ = _
    rw [wrTile, if_pos ht]
  · rw [if_neg hf, if_pos hst]
    by_cases hb : s.by' * X + s.tx < ncol
    · rw [if_pos hb, if_pos hb]
      by_cases ha : s.bx * X + s.j + s.ty < nrow
      · rw [if_pos ha, if_pos ha, rd, if_pos (hS _ h3 _ ha _ hb)]
        show wrTile X m _ _ _ _ = _
        rw [wrTile, if_pos ht]
      · rw [if_neg ha, if_neg ha]
        show wrTile X m _ _ _ _ = _
        rw [wrTile, if_pos ht]
    · rw [if_neg hb, if_neg hb]

theorem tileStep_store (hY : Y ∣ X) (hD : ∀ z < gz, ∀ r < nrow, ∀ c < ncol, dstA z r c < n) {s : Step} (hs : s.Of X Y gx gy gz)
    (hst : s.store = true) (m : Mem) :
    tileStep X n nrow ncol srcA dstA src s m = .ok (if s.bx * X + s.tx < nrow ∧ s.by' * X + s.j + s.ty < ncol then
      ⟨m.sh, Function.update m.out (dstA s.bz (s.bx * X + s.tx) (s.by' * X + s.j + s.ty)) (m.sh (s.bx, s.by', s.bz) (s.tx * (X + 1) + (s.j + s.ty)))⟩
      else m) := by
  have hr := hs.row_lt hY
  obtain ⟨h1, h2, h3, h4, h5, h6, h7⟩ := hs
  have ht := tile_lt h4 hr
  have hst' : ¬ s.store = false := by rw [hst]; decide
  unfold tileStep
  by_cases hf : X ≤ nrow - s.bx * X ∧ X ≤ ncol - s.by' * X
  · have ha : s.bx * X + s.tx < nrow := by omega
    have hb : s.by' * X + s.j + s.ty < ncol := by omega
    rw [if_pos hf, if_neg hst', if_pos ⟨ha, hb⟩, rdTile, rd, if_pos ht]
    show wrOut n m _ _ = _
    rw [wrOut, if_pos (hD _ h3 _ ha _ hb)]
  · rw [if_neg hf, if_neg hst']
    by_cases ha : s.bx * X + s.tx < nrow
    · rw [if_pos ha]
      by_cases hb : s.by' * X + s.j + s.ty < ncol
      · rw [if_pos hb, if_pos ⟨ha, hb⟩, rdTile, rd, if_pos ht]
        show wrOut n m _ _ = _
        rw [wrOut, if_pos (hD _ h3 _ ha _ hb)]
      · rw [if_neg hb, if_neg (fun h => hb h.2)]
    · rw [if_neg ha, if_neg (fun h => ha h.1)]

/-- What holds when the iterations `done` have taken effect. -/
def Inv (X nrow ncol : ℕ) (srcA dstA : ℕ → ℕ → ℕ → ℕ) (src P : ℕ → ℝ) (done : List Step) (m : Mem) : Prop :=
  (∀ s ∈ done, s.store = false → s.by' * X + s.tx < ncol → s.bx * X + s.j + s.ty < nrow →
    m.sh (s.bx, s.by', s.bz) ((s.j + s.ty) * (X + 1) + s.tx) = src (srcA s.bz (s.bx * X + s.j + s.ty) (s.by' * X + s.tx))) ∧
  (∀ s ∈ done, s.store = true → s.bx * X + s.tx < nrow → s.by' * X + s.j + s.ty < ncol →
    m.out (dstA s.bz (s.bx * X + s.tx) (s.by' * X + s.j + s.ty)) = P (dstA s.bz (s.bx * X + s.tx) (s.by' * X + s.j + s.ty)))

theorem inv_load {P : ℕ → ℝ} (hY : Y ∣ X) (hS : ∀ z < gz, ∀ r < nrow, ∀ c < ncol, srcA z r c < n) {s : Step} (hs : s.Of X Y gx gy gz)
    (hst : s.store = false) {done : List Step} (hd : ∀ t ∈ done, t.Of X Y gx gy gz) {m : Mem} (hm : Inv X nrow ncol srcA dstA src P done m) :
    ∃ m', tileStep X n nrow ncol srcA dstA src s m = .ok m' ∧ Inv X nrow ncol srcA dstA src P (done ++ [s]) m' := by
  refine ⟨_, tileStep_load hY hS hs hst m, ?_, ?_⟩
  · intro t ht hts hc hr
    have hto : t.Of X Y gx gy gz := by
      rcases List.mem_append.mp ht with h | h
      · exact hd t h
      · rw [List.mem_singleton.mp h]; exact hs
    by_cases hb : s.by' * X + s.tx < ncol
    · rw [if_pos hb]
      dsimp only
      by_cases he : (t.bx, t.by', t.bz) = (s.bx, s.by', s.bz)
      · rw [he, Function.update_self]
        by_cases ha : (t.j + t.ty) * (X + 1) + t.tx = (s.j + s.ty) * (X + 1) + s.tx
        · rw [ha, Function.update_self]
          obtain ⟨e1, e2⟩ := tile_inj hto.2.2.2.1 hs.2.2.2.1 ha
          have he' := he
          simp only [Prod.mk.injEq] at he'
          obtain ⟨e3, e4, e5⟩ := he'
          have e6 : t.bx * X + t.j + t.ty = s.bx * X + s.j + s.ty := by rw [e3]; omega
          rw [if_pos (by rw [← e6]; exact hr), e6, e5, e4, e2]
        · rw [Function.update_of_ne ha, ← he]
          rcases List.mem_append.mp ht with h | h
          · exact hm.1 t h hts hc hr
          · rw [List.mem_singleton.mp h] at ha; exact absurd rfl ha
      · rw [Function.update_of_ne he]
        rcases List.mem_append.mp ht with h | h
        · exact hm.1 t h hts hc hr
        · rw [List.mem_singleton.mp h] at he; exact absurd rfl he
    · rw [if_neg hb]
      rcases List.mem_append.mp ht with h | h
      · exact hm.1 t h hts hc hr
      · rw [List.mem_singleton.mp h] at hc; exact absurd hc hb
  · intro t ht hts hr hc
    have ht' : t ∈ done := by
      rcases List.mem_append.mp ht with h | h
      · exact h
      · rw [List.mem_singleton.mp h, hst] at hts; cases hts
    have h := hm.2 t ht' hts hr hc
    split_ifs <;> exact h

theorem inv_store {P : ℕ → ℝ} (hY : Y ∣ X) (hD : ∀ z < gz, ∀ r < nrow, ∀ c < ncol, dstA z r c < n)
    (hP : ∀ z < gz, ∀ r < nrow, ∀ c < ncol, P (dstA z r c) = src (srcA z r c)) {s : Step} (hs : s.Of X Y gx gy gz)
    (hst : s.store = true) {done : List Step}
    (hready : ∀ t : Step, t.Of X Y gx gy gz → t.store = false → (t.bx, t.by', t.bz) = (s.bx, s.by', s.bz) → t ∈ done)
    {m : Mem} (hm : Inv X nrow ncol srcA dstA src P done m) :
    ∃ m', tileStep X n nrow ncol srcA dstA src s m = .ok m' ∧ Inv X nrow ncol srcA dstA src P (done ++ [s]) m' := by
  have hr := hs.row_lt hY
  obtain ⟨h1, h2, h3, h4, h5, h6, h7⟩ := hs
  refine ⟨_, tileStep_store hY hD ⟨h1, h2, h3, h4, h5, h6, h7⟩ hst m, ?_, ?_⟩
  · intro t ht hts hc hr'
    have ht' : t ∈ done := by
      rcases List.mem_append.mp ht with h | h
      · exact h
      · rw [List.mem_singleton.mp h, hst] at hts; cases hts
    have h := hm.1 t ht' hts hc hr'
    split_ifs <;> exact h
  · intro t ht hts hr' hc
    by_cases hb : s.bx * X + s.tx < nrow ∧ s.by' * X + s.j + s.ty < ncol
    · rw [if_pos hb]
      dsimp only
      by_cases ha : dstA t.bz (t.bx * X + t.tx) (t.by' * X + t.j + t.ty) = dstA s.bz (s.bx * X + s.tx) (s.by' * X + s.j + s.ty)
      · rw [ha, Function.update_self, hP _ h3 _ hb.1 _ hb.2]
        have hYp : 0 < Y := by omega
        have hdm := Nat.div_add_mod s.tx Y
        have hload := hm.1 ⟨s.bx, s.by', s.bz, s.j + s.ty, s.tx % Y, Y * (s.tx / Y), false⟩
          (hready _ ⟨h1, h2, h3, hr, Nat.mod_lt _ hYp, lt_of_le_of_lt (Nat.mul_div_le _ _) h4, Dvd.intro _ rfl⟩ rfl rfl) rfl
          (by show s.by' * X + (s.j + s.ty) < ncol; omega) (by show s.bx * X + Y * (s.tx / Y) + s.tx % Y < nrow; omega)
        dsimp only at hload
        rw [show s.bx * X + Y * (s.tx / Y) + s.tx % Y = s.bx * X + s.tx from by omega, hdm, ← add_assoc] at hload
        rw [← add_assoc, hload, add_assoc]
      · rw [Function.update_of_ne ha]
        rcases List.mem_append.mp ht with h | h
        · exact hm.2 t h hts hr' hc
        · rw [List.mem_singleton.mp h] at ha; exact absurd rfl ha
    · rw [if_neg hb]
      rcases List.mem_append.mp ht with h | h
      · exact hm.2 t h hts hr' hc
      · rw [List.mem_singleton.mp h] at hr' hc; exact absurd ⟨hr', hc⟩ hb

theorem launch_inv {P : ℕ → ℝ} (hY : Y ∣ X) (hS : ∀ z < gz, ∀ r < nrow, ∀ c < ncol, srcA z r c < n)
    (hD : ∀ z < gz, ∀ r < nrow, ∀ c < ncol, dstA z r c < n)
    (hP : ∀ z < gz, ∀ r < nrow, ∀ c < ncol, P (dstA z r c) = src (srcA z r c)) (l : List Step) :
    ∀ (done : List Step) (m : Mem), Schedule X Y gx gy gz (done ++ l) → Inv X nrow ncol srcA dstA src P done m →
      ∃ m', launch (tileStep X n nrow ncol srcA dstA src) l m = .ok m' ∧ Inv X nrow ncol srcA dstA src P (done ++ l) m' := by
  induction l with
  | nil => intro done m _ hm; exact ⟨m, rfl, by rwa [List.append_nil]⟩
  | cons s l ih =>
    intro done m hl hm
    have hs : s.Of X Y gx gy gz := (hl.all s).mp (by simp)
    obtain ⟨m1, e1, i1⟩ : ∃ m', tileStep X n nrow ncol srcA dstA src s m = .ok m' ∧ Inv X nrow ncol srcA dstA src P (done ++ [s]) m' := by
      cases hst : s.store with
      | false => exact inv_load hY hS hs hst (fun t ht => (hl.all t).mp (List.mem_append_left _ ht)) hm
      | true =>
        refine inv_store hY hD hP hs hst (fun t ht hts he => ?_) hm
        have hmem := (hl.all t).mpr ht
        rcases List.mem_append.mp hmem with h | h
        · exact h
        · rcases List.mem_cons.mp h with h | h
          · rw [h, hst] at hts; cases hts
          · have hp := (List.pairwise_append.mp hl.barrier).2.1
            exact absurd he.symm ((List.pairwise_cons.mp hp).1 t h hst hts)
    obtain ⟨m2, e2, i2⟩ := ih (done ++ [s]) m1 (by rwa [List.append_assoc, List.singleton_append]) i1
    refine ⟨m2, ?_, by rwa [List.append_assoc, List.singleton_append] at i2⟩
    show (match tileStep X n nrow ncol srcA dstA src s m with | .error e => _ | .ok m => _) = _
    rw [e1]
    exact e2

/-- A launch of the common form stores, at every position of the output, what belongs there. -/
theorem launch_tile {P : ℕ → ℝ} (hX : 0 < X) (hY0 : 0 < Y) (hY : Y ∣ X) (hS : ∀ z < gz, ∀ r < nrow, ∀ c < ncol, srcA z r c < n)
    (hD : ∀ z < gz, ∀ r < nrow, ∀ c < ncol, dstA z r c < n)
    (hP : ∀ z < gz, ∀ r < nrow, ∀ c < ncol, P (dstA z r c) = src (srcA z r c))
    (hcov : ∀ k < n, ∃ z < gz, ∃ r < nrow, ∃ c < ncol, dstA z r c = k) (hgx : nrow ≤ gx * X) (hgy : ncol ≤ gy * X)
    {l : List Step} (hl : Schedule X Y gx gy gz l) (m : Mem) :
    ∃ m', launch (tileStep X n nrow ncol srcA dstA src) l m = .ok m' ∧ ∀ k < n, m'.out k = P k := by
  obtain ⟨m', e, i⟩ := launch_inv hY hS hD hP l [] m hl ⟨fun s hs => absurd hs (by simp), fun s hs => absurd hs (by simp)⟩
  refine ⟨m', e, fun k hk => ?_⟩
  obtain ⟨z, hz, r, hr, c, hc, rfl⟩ := hcov k hk
  have hc1 : c % X < X := Nat.mod_lt _ hX
  have e1 : r / X * X + r % X = r := by rw [mul_comm]; exact Nat.div_add_mod r X
  have e2 : c / X * X + c % X = c := by rw [mul_comm]; exact Nat.div_add_mod c X
  have e3 := Nat.div_add_mod (c % X) Y
  have h := i.2 ⟨r / X, c / X, z, r % X, c % X % Y, Y * (c % X / Y), true⟩
    ((hl.all _).mpr ⟨Nat.div_lt_of_lt_mul (by rw [mul_comm]; omega), Nat.div_lt_of_lt_mul (by rw [mul_comm]; omega), hz, Nat.mod_lt _ hX,
      Nat.mod_lt _ hY0, lt_of_le_of_lt (Nat.mul_div_le _ _) hc1, Dvd.intro _ rfl⟩) rfl
    (by show r / X * X + r % X < nrow; omega) (by show c / X * X + Y * (c % X / Y) + c % X % Y < ncol; omega)
  dsimp only at h
  rw [e1, show c / X * X + Y * (c % X / Y) + c % X % Y = c from by omega] at h
  exact h
end

theorem divUp_mul (a : ℕ) {b : ℕ} (hb : 0 < b) : a ≤ AttnGpu.divUp a b * b := by
  unfold AttnGpu.divUp
  have h1 := Nat.div_add_mod (a + (b - 1)) b
  have h2 := Nat.mod_lt (a + (b - 1)) hb
  rw [mul_comm]
  omega

theorem tileWarps_dvd (ptx : ℕ) : 0 < tileWarps ptx ∧ tileWarps ptx ∣ 32 := by
  unfold tileWarps
  split_ifs <;> decide

theorem bz_split {nlat nb z : ℕ} (h : z < nlat * nb) : z / nlat < nb ∧ z - z / nlat * nlat < nlat := by
  have h0 : 0 < nlat := Nat.pos_of_mul_pos_right (lt_of_le_of_lt (Nat.zero_le _) h)
  have h1 := Nat.div_add_mod z nlat
  have h2 := Nat.mod_lt z h0
  refine ⟨Nat.div_lt_of_lt_mul h, ?_⟩
  rw [mul_comm] at h1
  omega

theorem bz_join {nlat nb b h : ℕ} (hb : b < nb) (hh : h < nlat) :
    b * nlat + h < nlat * nb ∧ (b * nlat + h) / nlat = b ∧ b * nlat + h - (b * nlat + h) / nlat * nlat = h := by
  have h1 : (b * nlat + h) / nlat = b := by
    rw [mul_comm, Nat.mul_add_div (by omega), Nat.div_eq_of_lt hh, add_zero]
  refine ⟨?_, h1, by rw [h1]; omega⟩
  have : (b + 1) * nlat ≤ nb * nlat := Nat.mul_le_mul_right _ hb
  nlinarith

/-- A launch of `permute_to0231_k` under any schedule. -/
theorem launch_0231 {x : Arr} {B C H W : ℕ} (hx : x.shape = [B, C, H, W]) (ptx : ℕ) {l : List Step}
    (hl : Schedule 32 (tileWarps ptx) (AttnGpu.divUp C 32) (AttnGpu.divUp W 32) (H * B) l) (m : Mem) :
    ∃ m', launch (step0231 32 B C H W x.data) l m = .ok m' ∧
      ∀ b < B, ∀ h < H, ∀ w < W, ∀ c < C, m'.out (flat [B, H, W, C] [b, h, w, c]) = x.at [b, c, h, w] := by
  obtain ⟨p1, p2⟩ := permute_0231 hx
  have hn : B * (C * (H * W)) = ([B, C, H, W] : List ℕ).prod := by simp
  have hn' : B * (C * (H * W)) = ([B, H, W, C] : List ℕ).prod := by simp only [List.prod_cons, List.prod_nil]; ring
  obtain ⟨m', e, he⟩ := launch_tile (P := (x.permute [0, 2, 3, 1]).data) (X := 32) (n := B * (C * (H * W))) (nrow := C) (ncol := W) (src := x.data)
    (srcA := fun bz r c => flat [B, C, H, W] [bz / H, r, bz - bz / H * H, c]) (dstA := fun bz r c => flat [B, H, W, C] [bz / H, bz - bz / H * H, c, r])
    (by decide) (tileWarps_dvd ptx).1 (tileWarps_dvd ptx).2
    (fun z hz r hr c hc => by
      rw [hn]; exact flat_lt (inside4 (bz_split hz).1 hr (bz_split hz).2 hc))
    (fun z hz r hr c hc => by
      rw [hn']; exact flat_lt (inside4 (bz_split hz).1 (bz_split hz).2 hc hr))
    (fun z hz r hr c hc => by
      have h := p2 _ (bz_split hz).1 r hr _ (bz_split hz).2 c hc
      unfold Arr.at at h
      rw [p1, hx] at h
      exact h)
    (fun k hk => by
      rw [hn'] at hk
      obtain ⟨h1, h2⟩ := flat_unflat hk
      generalize unflat [B, H, W, C] k = i at h1 h2
      cases h2 with
      | cons hb h2 => cases h2 with
        | cons hh h2 => cases h2 with
          | cons hw h2 => cases h2 with
            | cons hc h2 =>
              cases h2
              obtain ⟨q1, q2, q3⟩ := bz_join hb hh
              refine ⟨_, q1, _, hc, _, hw, ?_⟩
              rw [q3, q2]
              exact h1)
    (divUp_mul C (by decide)) (divUp_mul W (by decide)) hl m
  refine ⟨m', by rw [step0231_eq]; exact e, fun b hb h hh w hw c hc => ?_⟩
  rw [he _ (by rw [hn']; exact flat_lt (inside4 hb hh hw hc)), ← p2 b hb c hc h hh w hw]
  unfold Arr.at
  rw [p1]

/-- A launch of `permute_to0312_k` under any schedule. -/
theorem launch_0312 {x : Arr} {B C H W : ℕ} (hx : x.shape = [B, H, W, C]) (ptx : ℕ) {l : List Step}
    (hl : Schedule 32 (tileWarps ptx) (AttnGpu.divUp W 32) (AttnGpu.divUp C 32) (H * B) l) (m : Mem) :
    ∃ m', launch (step0312 32 B C H W x.data) l m = .ok m' ∧
      ∀ b < B, ∀ c < C, ∀ h < H, ∀ w < W, m'.out (flat [B, C, H, W] [b, c, h, w]) = x.at [b, h, w, c] := by
  obtain ⟨p1, p2⟩ := permute_0312 hx
  have hn : B * (H * (W * C)) = ([B, H, W, C] : List ℕ).prod := by simp
  have hn' : B * (H * (W * C)) = ([B, C, H, W] : List ℕ).prod := by simp only [List.prod_cons, List.prod_nil]; ring
  obtain ⟨m', e, he⟩ := launch_tile (P := (x.permute [0, 3, 1, 2]).data) (X := 32) (n := B * (H * (W * C))) (nrow := W) (ncol := C) (src := x.data)
    (srcA := fun bz r c => flat [B, H, W, C] [bz / H, bz - bz / H * H, r, c]) (dstA := fun bz r c => flat [B, C, H, W] [bz / H, c, bz - bz / H * H, r])
    (by decide) (tileWarps_dvd ptx).1 (tileWarps_dvd ptx).2
    (fun z hz r hr c hc => by
      rw [hn]; exact flat_lt (inside4 (bz_split hz).1 (bz_split hz).2 hr hc))
    (fun z hz r hr c hc => by
      rw [hn']; exact flat_lt (inside4 (bz_split hz).1 hc (bz_split hz).2 hr))
    (fun z hz r hr c hc => by
      have h := p2 _ (bz_split hz).1 c hc _ (bz_split hz).2 r hr
      unfold Arr.at at h
      rw [p1, hx] at h
      exact h)
    (fun k hk => by
      rw [hn'] at hk
      obtain ⟨h1, h2⟩ := flat_unflat hk
      generalize unflat [B, C, H, W] k = i at h1 h2
      cases h2 with
      | cons hb h2 => cases h2 with
        | cons hc h2 => cases h2 with
          | cons hh h2 => cases h2 with
            | cons hw h2 =>
              cases h2
              obtain ⟨q1, q2, q3⟩ := bz_join hb hh
              refine ⟨_, q1, _, hw, _, hc, ?_⟩
              rw [q3, q2]
              exact h1)
    (divUp_mul W (by decide)) (divUp_mul C (by decide)) hl m
  refine ⟨m', by rw [step0312_eq]; exact e, fun b hb c hc h hh w hw => ?_⟩
  rw [he _ (by rw [hn']; exact flat_lt (inside4 hb hc hh hw)), ← p2 b hb c hc h hh w hw]
  unfold Arr.at
  rw [p1]

/-- The iterations of a launch, one after the other. -/
def allSteps (X Y gx gy gz : ℕ) (store : Bool) : List Step :=
  ((List.range gx).flatMap fun bx => (List.range gy).flatMap fun by' => (List.range gz).flatMap fun bz => (List.range X).flatMap fun tx =>
    (List.range Y).flatMap fun ty => ((List.range X).filter fun j => Y ∣ j).map fun j => ⟨bx, by', bz, tx, ty, j, store⟩).dedup

theorem mem_allSteps {X Y gx gy gz : ℕ} {store : Bool} {s : Step} :
    s ∈ allSteps X Y gx gy gz store ↔ s.Of X Y gx gy gz ∧ s.store = store := by
  unfold allSteps Step.Of
  simp only [List.mem_dedup, List.mem_flatMap, List.mem_range, List.mem_map, List.mem_filter, decide_eq_true_eq]
  constructor
  · rintro ⟨bx, h1, by', h2, bz, h3, tx, h4, ty, h5, j, ⟨h6, h7⟩, rfl⟩
    exact ⟨⟨h1, h2, h3, h4, h5, h6, h7⟩, rfl⟩
  · rintro ⟨⟨h1, h2, h3, h4, h5, h6, h7⟩, rfl⟩
    exact ⟨_, h1, _, h2, _, h3, _, h4, _, h5, _, ⟨h6, h7⟩, rfl⟩

/-- There is always a schedule: all loops before the barriers, then all loops behind them. -/
theorem exists_schedule (X Y gx gy gz : ℕ) : Schedule X Y gx gy gz (allSteps X Y gx gy gz false ++ allSteps X Y gx gy gz true) := by
  refine ⟨List.nodup_append.mpr ⟨List.nodup_dedup _, List.nodup_dedup _, fun s hs t ht he => ?_⟩, fun s => ?_, List.pairwise_append.mpr ⟨?_, ?_, ?_⟩⟩
  · have h1 := (mem_allSteps.mp hs).2
    have h2 := (mem_allSteps.mp ht).2
    rw [he, h2] at h1
    cases h1
  · rw [List.mem_append, mem_allSteps, mem_allSteps]
    cases s.store <;> simp
  · exact List.Pairwise.imp_of_mem (R := fun _ _ => True) (fun {a b} ha _ _ h => by rw [(mem_allSteps.mp ha).2] at h; cases h) (List.pairwise_of_forall fun _ _ => trivial)
  · exact List.Pairwise.imp_of_mem (R := fun _ _ => True) (fun {a b} _ hb _ _ h => by rw [(mem_allSteps.mp hb).2] at h; cases h) (List.pairwise_of_forall fun _ _ => trivial)
  · intro a ha b _ h
    rw [(mem_allSteps.mp ha).2] at h
    cases h

end Verif.GpuLayout
