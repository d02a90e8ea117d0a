import Verif.Model.DiscoKpacked
import Mathlib.Tactic.Linarith
import Mathlib.Tactic.Ring
import Mathlib.Algebra.BigOperators.Intervals
/-!
Facts about the k-packed kernels: flat addressing, unordered stores, the staged tiles, descriptors and the accumulation.
-/
namespace Verif.Disco
open Verif Verif.Dist Finset

variable {R : Type}

theorem mapM_ok {α β : Type} (f : α → Except PyErr β) (g : α → β) (l : List α) (h : ∀ x ∈ l, f x = .ok (g x)) :
    l.mapM f = .ok (l.map g) := by
  induction l with
  | nil => rfl
  | cons a l ih =>
    rw [List.mapM_cons, h a (List.mem_cons_self ..), ih fun x hx => h x (List.mem_cons_of_mem _ hx)]
    rfl

theorem flat_lt {d0 d1 a b : ℕ} (ha : a < d0) (hb : b < d1) : a * d1 + b < d0 * d1 := by
  have : (a + 1) * d1 ≤ d0 * d1 := Nat.mul_le_mul_right _ ha
  rw [Nat.succ_mul] at this
  omega

theorem flat_div {d1 a b : ℕ} (hb : b < d1) : (a * d1 + b) / d1 = a := by
  rw [Nat.add_comm, Nat.add_mul_div_right _ _ (by omega), Nat.div_eq_of_lt hb, Nat.zero_add]

theorem flat_mod {d1 a b : ℕ} (hb : b < d1) : (a * d1 + b) % d1 = b := by
  rw [Nat.add_comm, Nat.add_mul_mod_self_right, Nat.mod_eq_of_lt hb]

theorem flat3_get {d0 d1 d2 a b c : ℕ} (f : ℕ → ℕ → ℕ → R) (ha : a < d0) (hb : b < d1) (hc : c < d2) :
    (flat3 d0 d1 d2 f).get ((a * d1 + b) * d2 + c) = .ok (f a b c) := by
  unfold Flat.get flat3
  dsimp only
  rw [if_pos (flat_lt (flat_lt ha hb) hc), flat_mod hc, flat_div hc, flat_mod hb, Nat.mul_comm d1 d2, ← Nat.div_div_eq_div_mul, flat_div hc,
    flat_div hb]

/-- Stores that agree wherever they overlap give the same memory in every order. -/
theorem storeAll_ok (size : ℕ) (F : ℕ → R) (l : List (ℕ × R)) (h : ∀ s ∈ l, s.1 < size ∧ s.2 = F s.1) (m : ℕ → R) :
    ∃ m', storeAll size m l = .ok m' ∧ ∀ a, m' a = if ∃ s ∈ l, s.1 = a then F a else m a := by
  induction l generalizing m with
  | nil => exact ⟨m, rfl, fun a => by simp⟩
  | cons s l ih =>
    obtain ⟨h1, h2⟩ := h s (List.mem_cons_self ..)
    obtain ⟨m', e1, e2⟩ := ih (fun x hx => h x (List.mem_cons_of_mem _ hx)) (Function.update m s.1 s.2)
    refine ⟨m', ?_, ?_⟩
    · unfold storeAll at e1 ⊢
      rw [List.foldlM_cons]
      have : store size m s.1 s.2 = .ok (Function.update m s.1 s.2) := by
        unfold store
        rw [if_pos h1]
      rw [this]
      exact e1
    · intro a
      rw [e2 a]
      by_cases hl : ∃ x ∈ l, x.1 = a
      · obtain ⟨x, hx, hxa⟩ := hl
        rw [if_pos ⟨x, hx, hxa⟩, if_pos ⟨x, List.mem_cons_of_mem _ hx, hxa⟩]
      · rw [if_neg hl]
        by_cases hs : s.1 = a
        · rw [if_pos ⟨s, List.mem_cons_self .., hs⟩, h2, hs, Function.update_self]
        · rw [if_neg, Function.update_of_ne (Ne.symm hs)]
          rintro ⟨x, hx, hxa⟩
          rcases List.mem_cons.1 hx with rfl | hx
          · exact hs hxa
          · exact hl ⟨x, hx, hxa⟩

/-- What the wrapper checks and what the packing guarantees. -/
structure Good (x : Ten R) (P : KPacked R) (nbrPad K Ho Wo : ℕ) : Prop where
  hN : P.kPad = 8 ∨ P.kPad = 16
  hWo : Wo % 8 = 0
  hpos : 0 < Wo
  hdiv : x.d2 % Wo = 0
  hidx : ∀ t < Ho, ∀ off < P.count t, (P.idx t off).1 < x.d1 ∧ (P.idx t off).2 < x.d2
  hcnt : ∀ t < Ho, P.count t ≤ nbrPad

/-- The block lies inside the output. -/
structure Inside (b : KBlock) (Ho Wo : ℕ) : Prop where
  ho : b.ho < Ho
  wo : b.woBase + 8 ≤ Wo

section
variable [CommSemiring R]

/-- Entry `(m, z)` of the gathered input: row `m` is plane `m / 8` and longitude `m % 8` of the tile, `z` is the neighbour. -/
def aVal (x : Ten R) (P : KPacked R) (Wo : ℕ) (b : KBlock) (m z : ℕ) : R :=
  if z < P.count b.ho ∧ b.bcStart + m / 8 < x.d0 then
    x.val (b.bcStart + m / 8) (P.idx b.ho z).1 (((P.idx b.ho z).2 + (b.woBase + m % 8) * (x.d2 / Wo)) % x.d2) else 0

/-- Entry `(n, z)` of the filter. -/
def bVal (P : KPacked R) (b : KBlock) (n z : ℕ) : R := if z < P.count b.ho then P.val b.ho z n else 0

theorem bVal_congr {P : KPacked R} {b : KBlock} {n n' z z' : ℕ} (h1 : n = n') (h2 : z = z') : bVal P b n z = bVal P b n' z' := by
  rw [h1, h2]

theorem wrap_once {wb q ps Wi Wo : ℕ} (h : Wi = ps * Wo) (hw : wb < Wi) (hq : q < Wo) :
    (if wb + q * ps ≥ Wi then wb + q * ps - Wi else wb + q * ps) = (wb + q * ps) % Wi ∧ (wb + q * ps) % Wi < Wi := by
  have h1 : (q + 1) * ps ≤ Wo * ps := Nat.mul_le_mul_right _ hq
  rw [Nat.succ_mul, Nat.mul_comm Wo ps, ← h] at h1
  refine ⟨?_, Nat.mod_lt _ (by omega)⟩
  by_cases hc : wb + q * ps ≥ Wi
  · rw [if_pos hc, Nat.mod_eq_sub_mod hc, Nat.mod_eq_of_lt (by omega)]
  · rw [if_neg hc, Nat.mod_eq_of_lt (by omega)]

theorem stageA_eq {x : Ten R} {P : KPacked R} {nbrPad K Ho Wo : ℕ} (hg : Good x P nbrPad K Ho Wo) {b : KBlock} (hb : Inside b Ho Wo)
    (tile off tid : ℕ) :
    stageA (kArgs x P nbrPad K Ho Wo) b tile off (P.count b.ho) tid = .ok ((List.range 8).map fun i =>
      (tile + tid / 16 * 128 + tid % 16 * 8 + i, aVal x P Wo b (tid / 16 * 8 + i) (off + tid % 16))) := by
  have hmod : tid - tid / 16 * 16 = tid % 16 := by omega
  have hps : x.d2 = x.d2 / Wo * Wo := (Nat.div_mul_cancel (Nat.dvd_of_mod_eq_zero hg.hdiv)).symm
  unfold stageA kArgs
  simp only [nzChunk, hmod]
  by_cases hc : off + tid % 16 < P.count b.ho ∧ b.bcStart + tid / 16 < x.d0
  · rw [if_pos hc]
    have hle := hg.hcnt b.ho hb.ho
    have hg1 := flat3_get (fun t o c => if c = 0 then (P.idx t o).1 else (P.idx t o).2) hb.ho
      (show off + tid % 16 < nbrPad by omega) (show 0 < 2 by norm_num)
    have hg2 := flat3_get (fun t o c => if c = 0 then (P.idx t o).1 else (P.idx t o).2) hb.ho
      (show off + tid % 16 < nbrPad by omega) (show 1 < 2 by norm_num)
    rw [show b.ho * nbrPad * 2 + ((off + tid % 16) * 2 + 0) = (b.ho * nbrPad + (off + tid % 16)) * 2 + 0 by ring, hg1]
    rw [show b.ho * nbrPad * 2 + ((off + tid % 16) * 2 + 1) = (b.ho * nbrPad + (off + tid % 16)) * 2 + 1 by ring, hg2]
    simp only [if_true, one_ne_zero, if_false]
    obtain ⟨i1, i2⟩ := hg.hidx b.ho hb.ho _ hc.1
    apply mapM_ok
    intro i hi
    rw [List.mem_range] at hi
    have hw := wrap_once hps i2 (show b.woBase + i < Wo by have := hb.wo; omega)
    rw [hw.1]
    rw [show (b.bcStart + tid / 16) * x.d1 * x.d2 + (P.idx b.ho (off + tid % 16)).1 * x.d2
        + ((P.idx b.ho (off + tid % 16)).2 + (b.woBase + i) * (x.d2 / Wo)) % x.d2
      = ((b.bcStart + tid / 16) * x.d1 + (P.idx b.ho (off + tid % 16)).1) * x.d2
        + ((P.idx b.ho (off + tid % 16)).2 + (b.woBase + i) * (x.d2 / Wo)) % x.d2 by ring, flat3_get x.val hc.2 i1 hw.2]
    dsimp only
    unfold aVal
    rw [show (tid / 16 * 8 + i) / 8 = tid / 16 by omega, show (tid / 16 * 8 + i) % 8 = i by omega, if_pos hc]
  · rw [if_neg hc]
    congr 1
    apply List.map_congr_left
    intro i hi
    rw [List.mem_range] at hi
    unfold aVal
    rw [show (tid / 16 * 8 + i) / 8 = tid / 16 by omega, if_neg hc]

theorem stageB_eq {x : Ten R} {P : KPacked R} {nbrPad K Ho Wo : ℕ} (hg : Good x P nbrPad K Ho Wo) {b : KBlock} (hb : Inside b Ho Wo)
    (tile off tid : ℕ) :
    stageB (kArgs x P nbrPad K Ho Wo) b tile off (P.count b.ho) tid = .ok (if tid < 16 * (P.kPad / 8) then (List.range 8).map fun i =>
      (tile + tid / 16 * 128 + tid % 16 * 8 + i, bVal P b (tid / 16 * 8 + i) (off + tid % 16)) else []) := by
  have hmod : tid - tid / 16 * 16 = tid % 16 := by omega
  unfold stageB kArgs
  simp only [nzChunk, hmod]
  by_cases ht : tid < 16 * (P.kPad / 8)
  · rw [if_pos ht, if_pos ht]
    by_cases hc : off + tid % 16 < P.count b.ho
    · rw [if_pos hc]
      apply mapM_ok
      intro i hi
      rw [List.mem_range] at hi
      have hle := hg.hcnt b.ho hb.ho
      have hk : tid / 16 * 8 + i < P.kPad := by
        rcases hg.hN with h | h <;> rw [h] at ht ⊢ <;> omega
      rw [show b.ho * nbrPad * P.kPad + ((off + tid % 16) * P.kPad + tid / 16 * 8) + i
        = (b.ho * nbrPad + (off + tid % 16)) * P.kPad + (tid / 16 * 8 + i) by ring,
        flat3_get P.val hb.ho (show off + tid % 16 < nbrPad by omega) hk]
      dsimp only
      unfold bVal
      rw [if_pos hc]
    · rw [if_neg hc]
      congr 1
      apply List.map_congr_left
      intro i hi
      unfold bVal
      rw [if_neg hc]
  · rw [if_neg ht, if_neg ht]

/-- What shared memory holds at element `e` after staging the chunk at `off`. -/
def staged (x : Ten R) (P : KPacked R) (Wo : ℕ) (b : KBlock) (tileA off e : ℕ) : R :=
  if e < tileA + 1024 then
    aVal x P Wo b ((e - tileA) / 128 * 8 + (e - tileA) % 8) (off + (e - tileA) % 128 / 8)
  else bVal P b ((e - (tileA + 1024)) / 128 * 8 + (e - (tileA + 1024)) % 8) (off + (e - (tileA + 1024)) % 128 / 8)

theorem stage_ok {x : Ten R} {P : KPacked R} {nbrPad K Ho Wo : ℕ} (hg : Good x P nbrPad K Ho Wo) {b : KBlock} (hb : Inside b Ho Wo)
    (size tileA off : ℕ) (hsize : tileA + 1024 + 16 * P.kPad ≤ size) (shuffle : List (ℕ × R) → List (ℕ × R))
    (hsh : ∀ l, (shuffle l).Perm l) (sh : ℕ → R) :
    ∃ sh', stage size shuffle (kArgs x P nbrPad K Ho Wo) b tileA (tileA + 1024) off (P.count b.ho) sh = .ok sh' ∧
      (∀ m < 64, ∀ k < 16, sh' (tileA + m / 8 * 128 + k * 8 + m % 8) = aVal x P Wo b m (off + k)) ∧
      (∀ n < P.kPad, ∀ k < 16, sh' (tileA + 1024 + n / 8 * 128 + k * 8 + n % 8) = bVal P b n (off + k)) ∧
      ∀ e < tileA, sh' e = sh e := by
  have hN : P.kPad / 8 = 1 ∧ P.kPad = 8 ∨ P.kPad / 8 = 2 ∧ P.kPad = 16 := by rcases hg.hN with h | h <;> rw [h] <;> simp
  set g : ℕ → List (ℕ × R) := fun tid => ((List.range 8).map fun i =>
      (tileA + tid / 16 * 128 + tid % 16 * 8 + i, aVal x P Wo b (tid / 16 * 8 + i) (off + tid % 16))) ++
      (if tid < 16 * (P.kPad / 8) then (List.range 8).map fun i =>
      (tileA + 1024 + tid / 16 * 128 + tid % 16 * 8 + i, bVal P b (tid / 16 * 8 + i) (off + tid % 16)) else []) with hgdef
  have hmap : (List.range kThreads).mapM (stageThread (kArgs x P nbrPad K Ho Wo) b tileA (tileA + 1024) off (P.count b.ho))
      = .ok ((List.range kThreads).map g) := by
    apply mapM_ok
    intro tid _
    simp only [stageThread, stageA_eq hg hb, stageB_eq hg hb, hgdef]
  have hmem : ∀ s, s ∈ shuffle ((List.range kThreads).map g).flatten ↔ ∃ tid < 128, s ∈ g tid := by
    intro s
    rw [(hsh _).mem_iff, List.mem_flatten]
    constructor
    · rintro ⟨l, hl, hs⟩
      obtain ⟨tid, ht, rfl⟩ := List.mem_map.1 hl
      exact ⟨tid, List.mem_range.1 ht, hs⟩
    · rintro ⟨tid, ht, hs⟩
      exact ⟨g tid, List.mem_map.2 ⟨tid, List.mem_range.2 ht, rfl⟩, hs⟩
  have hg' : ∀ tid s, s ∈ g tid ↔ (∃ i < 8, s = (tileA + tid / 16 * 128 + tid % 16 * 8 + i,
        aVal x P Wo b (tid / 16 * 8 + i) (off + tid % 16))) ∨
      (tid < 16 * (P.kPad / 8) ∧ ∃ i < 8, s = (tileA + 1024 + tid / 16 * 128 + tid % 16 * 8 + i,
        bVal P b (tid / 16 * 8 + i) (off + tid % 16))) := by
    intro tid s
    simp only [hgdef, List.mem_append, List.mem_map, List.mem_range]
    constructor
    · rintro (⟨i, hi, rfl⟩ | h)
      · exact Or.inl ⟨i, hi, rfl⟩
      · by_cases ht : tid < 16 * (P.kPad / 8)
        · rw [if_pos ht, List.mem_map] at h
          obtain ⟨i, hi, rfl⟩ := h
          exact Or.inr ⟨ht, i, List.mem_range.1 hi, rfl⟩
        · rw [if_neg ht] at h
          cases h
    · rintro (⟨i, hi, rfl⟩ | ⟨ht, i, hi, rfl⟩)
      · exact Or.inl ⟨i, hi, rfl⟩
      · right
        rw [if_pos ht, List.mem_map]
        exact ⟨i, List.mem_range.2 hi, rfl⟩
  obtain ⟨sh', e1, e2⟩ := storeAll_ok size (staged x P Wo b tileA off) (shuffle ((List.range kThreads).map g).flatten) (by
    intro s hs
    obtain ⟨tid, ht, hs⟩ := (hmem s).1 hs
    rcases (hg' tid s).1 hs with ⟨i, hi, rfl⟩ | ⟨ht', i, hi, rfl⟩
    · refine ⟨?_, ?_⟩
      · dsimp only
        rcases hN with h | h <;> omega
      · dsimp only
        unfold staged
        rw [if_pos (by omega)]
        congr 1 <;> omega
    · refine ⟨?_, ?_⟩
      · dsimp only
        rcases hN with h | h <;> omega
      · dsimp only
        unfold staged
        rw [if_neg (by omega)]
        exact bVal_congr (by omega) (by omega)) sh
  refine ⟨sh', ?_, ?_, ?_, ?_⟩
  · unfold stage
    rw [hmap]
    exact e1
  · intro m hm k hk
    rw [e2, if_pos]
    · unfold staged
      rw [if_pos (by omega)]
      congr 1 <;> omega
    · refine ⟨_, (hmem _).2 ⟨m / 8 * 16 + k, by omega, (hg' _ _).2 (Or.inl ⟨m % 8, by omega, rfl⟩)⟩, ?_⟩
      dsimp only
      omega
  · intro n hn k hk
    rw [e2, if_pos]
    · unfold staged
      rw [if_neg (by omega)]
      exact bVal_congr (by omega) (by omega)
    · refine ⟨_, (hmem _).2 ⟨n / 8 * 16 + k, ?_, (hg' _ _).2 (Or.inr ⟨?_, n % 8, by omega, rfl⟩)⟩, ?_⟩
      · rcases hN with h | h <;> omega
      · rcases hN with h | h <;> omega
      · dsimp only
        omega
  · intro e he
    rw [e2, if_neg]
    rintro ⟨s, hs, hse⟩
    obtain ⟨tid, ht, hs⟩ := (hmem s).1 hs
    rcases (hg' tid s).1 hs with ⟨i, hi, rfl⟩ | ⟨ht', i, hi, rfl⟩ <;> dsimp only at hse <;> omega

end

/-! Descriptors. -/

theorem and_3fff (n : ℕ) : n &&& 0x3fff = n % 16384 := Nat.and_two_pow_sub_one_eq_mod n 14

theorem desc_eq (addr lbo sbo : ℕ) : wgmmaDesc addr lbo sbo
    = addr / 16 % 16384 + lbo / 16 % 16384 * 2 ^ 16 + sbo / 16 % 16384 * 2 ^ 32 := by
  unfold wgmmaDesc
  simp only [and_3fff, Nat.shiftRight_eq_div_pow, Nat.shiftLeft_zero]
  have h1 := Nat.mod_lt (addr / 2 ^ 4) (show 0 < 16384 by norm_num)
  have h2 := Nat.mod_lt (lbo / 2 ^ 4) (show 0 < 16384 by norm_num)
  rw [Nat.or_comm (addr / 2 ^ 4 % 16384), ← Nat.shiftLeft_add_eq_or_of_lt (show addr / 2 ^ 4 % 16384 < 2 ^ 16 by omega), Nat.or_comm,
    ← Nat.shiftLeft_add_eq_or_of_lt (by rw [Nat.shiftLeft_eq]; omega), Nat.shiftLeft_eq, Nat.shiftLeft_eq]
  norm_num
  omega

theorem umma_eq (addr lbo sbo : ℕ) : ummaDesc addr lbo sbo
    = addr / 16 % 16384 + lbo / 16 % 16384 * 2 ^ 16 + sbo / 16 % 16384 * 2 ^ 32 + 2 ^ 46 := by
  have h : ummaDesc addr lbo sbo = wgmmaDesc addr lbo sbo ||| 1 <<< 46 := rfl
  have h1 := Nat.mod_lt (addr / 16) (show 0 < 16384 by norm_num)
  have h2 := Nat.mod_lt (lbo / 16) (show 0 < 16384 by norm_num)
  have h3 := Nat.mod_lt (sbo / 16) (show 0 < 16384 by norm_num)
  rw [h, Nat.or_comm, desc_eq, ← Nat.shiftLeft_add_eq_or_of_lt (by omega), Nat.shiftLeft_eq]
  omega

/-- Both descriptors place entry `(mn, k)` of a tile where the staging phase stores it. -/
theorem operand_addr (desc addr mn k : ℕ) (ha : 16 ∣ addr) (hlt : addr < 2 ^ 18)
    (hd : desc = wgmmaDesc addr (8 * 16) (16 * 16) ∨ desc = ummaDesc addr (8 * 16) (16 * 16)) :
    operandAddr true desc mn k = addr + mn / 8 * 256 + k * 16 + mn % 8 * 2 := by
  obtain ⟨q, rfl⟩ := ha
  have f : bitsAt desc 0 14 = q ∧ bitsAt desc 16 14 = 8 ∧ bitsAt desc 32 14 = 16 := by
    rcases hd with rfl | rfl
    · rw [desc_eq]
      unfold bitsAt
      norm_num
      omega
    · rw [umma_eq]
      unfold bitsAt
      norm_num
      omega
  unfold operandAddr
  rw [f.1, f.2.1, f.2.2]
  simp only [if_true]
  omega

theorem instr_eq (N : ℕ) (hN : N = 8 ∨ N = 16) (bf16 : Bool) :
    bitsAt (instrDesc N bf16) 4 2 = 1 ∧ bitsAt (instrDesc N bf16) 7 3 = (if bf16 then 1 else 0) ∧
    bitsAt (instrDesc N bf16) 10 3 = (if bf16 then 1 else 0) ∧ bitsAt (instrDesc N bf16) 15 1 = 1 ∧ bitsAt (instrDesc N bf16) 16 1 = 1 ∧
    bitsAt (instrDesc N bf16) 24 5 = 4 ∧ bitsAt (instrDesc N bf16) 17 6 * 8 = N := by
  rcases hN with rfl | rfl <;> cases bf16 <;> decide

section
variable [CommSemiring R]

/-- The tiles as the matrix instruction sees them. -/
theorem product_ok {x : Ten R} {P : KPacked R} {Wo : ℕ} {b : KBlock} {size base tileA off : ℕ} (hsize : tileA + 1024 + 16 * P.kPad ≤ size)
    (hN : P.kPad = 8 ∨ P.kPad = 16)
    (hal : 16 ∣ base + 2 * tileA) (hlt : base + 2 * (tileA + 1024) < 2 ^ 18) (sh : ℕ → R)
    (hA : ∀ m < 64, ∀ k < 16, sh (tileA + m / 8 * 128 + k * 8 + m % 8) = aVal x P Wo b m (off + k))
    (hB : ∀ n < P.kPad, ∀ k < 16, sh (tileA + 1024 + n / 8 * 128 + k * 8 + n % 8) = bVal P b n (off + k)) (dA dB : ℕ)
    (hdA : dA = wgmmaDesc (base + 2 * tileA) (8 * 16) (16 * 16) ∨ dA = ummaDesc (base + 2 * tileA) (8 * 16) (16 * 16))
    (hdB : dB = wgmmaDesc (base + 2 * (tileA + 1024)) (8 * 16) (16 * 16) ∨ dB = ummaDesc (base + 2 * (tileA + 1024)) (8 * 16) (16 * 16)) :
    ∃ Q, tileProduct size base sh true true dA dB 64 P.kPad = .ok Q ∧
      ∀ m < 64, ∀ n < P.kPad, Q m n = ∑ k ∈ range 16, aVal x P Wo b m (off + k) * bVal P b n (off + k) := by
  have eA : ∀ m k, operandAddr true dA m k = base + 2 * tileA + m / 8 * 256 + k * 16 + m % 8 * 2 := fun m k =>
    operand_addr dA _ m k hal (by omega) hdA
  have eB : ∀ m k, operandAddr true dB m k = base + 2 * (tileA + 1024) + m / 8 * 256 + k * 16 + m % 8 * 2 := fun m k =>
    operand_addr dB _ m k (by
      obtain ⟨q, hq⟩ := hal
      exact ⟨q + 128, by omega⟩) (by omega) hdB
  unfold tileProduct
  simp only [eA, eB]
  rw [if_pos (by
    refine ⟨fun m hm k hk => ⟨by omega, by omega⟩, fun n hn k hk => ⟨by omega, ?_⟩⟩
    rcases hN with h | h <;> rw [h] at hn hsize <;> omega)]
  refine ⟨_, rfl, ?_⟩
  intro m hm n hn
  apply sum_congr rfl
  intro k hk
  have hk := mem_range.1 hk
  rw [← hA m hm k hk, ← hB n hn k hk]
  congr 2 <;> omega

theorem frag_lt {N tid c : ℕ} (hN : N = 8 ∨ N = 16) (ht : tid < kThreads) (hc : c < N / 2) : fragM tid c < 64 ∧ fragN tid c < N := by
  unfold kThreads at ht
  unfold fragM fragN
  rcases hN with rfl | rfl <;> omega

/-- Every entry of the accumulator is held by a thread. -/
theorem frag_surj {N m n : ℕ} (hN : N = 8 ∨ N = 16) (hm : m < 64) (hn : n < N) :
    ∃ tid < kThreads, ∃ c < N / 2, fragM tid c = m ∧ fragN tid c = n := by
  refine ⟨m / 16 * 32 + m % 8 * 4 + n % 8 / 2, ?_, n / 8 * 4 + m % 16 / 8 * 2 + n % 2, ?_, ?_, ?_⟩
  · unfold kThreads; omega
  · rcases hN with rfl | rfl <;> omega
  · unfold fragM; omega
  · unfold fragN; omega

/-- The sum over the first `n` neighbours. -/
def tileSum (x : Ten R) (P : KPacked R) (Wo : ℕ) (b : KBlock) (m n N : ℕ) : R := ∑ z ∈ range N, aVal x P Wo b m z * bVal P b n z

theorem tileSum_add (x : Ten R) (P : KPacked R) (Wo : ℕ) (b : KBlock) (m n j : ℕ) :
    tileSum x P Wo b m n (j * 16) + ∑ k ∈ range 16, aVal x P Wo b m (j * 16 + k) * bVal P b n (j * 16 + k)
      = tileSum x P Wo b m n ((j + 1) * 16) := by
  unfold tileSum
  rw [show (j + 1) * 16 = j * 16 + 16 by ring, sum_range_add]

theorem tileSum_all (x : Ten R) (P : KPacked R) (Wo : ℕ) (b : KBlock) (m n : ℕ) :
    tileSum x P Wo b m n ((P.count b.ho + (nzChunk - 1)) / nzChunk * 16) = tileSum x P Wo b m n (P.count b.ho) := by
  unfold tileSum nzChunk
  symm
  apply sum_subset
  · intro z hz
    rw [mem_range] at *
    omega
  · intro z _ hz
    rw [mem_range] at hz
    unfold bVal
    rw [if_neg hz, mul_zero]

theorem foldlM_range_succ {σ : Type} (f : σ → ℕ → Except PyErr σ) (s : σ) (n : ℕ) :
    (List.range (n + 1)).foldlM f s = ((List.range n).foldlM f s).bind fun t => f t n := by
  rw [List.range_succ, List.foldlM_append]
  cases (List.range n).foldlM f s with
  | error e => rfl
  | ok t =>
    show ([n].foldlM f t : Except PyErr σ) = f t n
    rw [List.foldlM_cons]
    cases f t n <;> rfl

theorem sm90_loop {x : Ten R} {P : KPacked R} {nbrPad K Ho Wo : ℕ} (hg : Good x P nbrPad K Ho Wo) {b : KBlock} (hb : Inside b Ho Wo)
    {base : ℕ} (hal : 16 ∣ base) (hlt : base + 4096 < 2 ^ 18) (junk : ℕ → R) (shuffle : ℕ → List (ℕ × R) → List (ℕ × R))
    (hsh : ∀ j l, (shuffle j l).Perm l) (n : ℕ) :
    ∃ s, (List.range n).foldlM (sm90Step ((2048 + 32 * P.kPad) / 2) base shuffle (kArgs x P nbrPad K Ho Wo) b (P.count b.ho))
        (⟨junk, fun _ _ => 0⟩ : Sm90 R) = .ok s ∧
      ∀ tid < kThreads, ∀ c < P.kPad / 2, s.acc tid c = tileSum x P Wo b (fragM tid c) (fragN tid c) (n * 16) := by
  induction n with
  | zero => exact ⟨_, rfl, fun tid _ c _ => by simp [tileSum]⟩
  | succ n ih =>
    obtain ⟨s, e1, e2⟩ := ih
    rw [foldlM_range_succ, e1]
    obtain ⟨sh', h1, h2, h3, -⟩ := stage_ok hg hb ((2048 + 32 * P.kPad) / 2) 0 (n * 16) (by omega) (shuffle n) (hsh n) s.sh
    obtain ⟨Q, q1, q2⟩ := product_ok (size := (2048 + 32 * P.kPad) / 2) (base := base) (tileA := 0) (by omega) hg.hN (by simpa using hal) (by omega)
      sh' h2 h3 _ _ (Or.inl rfl) (Or.inl rfl)
    simp only [Nat.zero_add] at h1 q1
    have hstep : sm90Step ((2048 + 32 * P.kPad) / 2) base shuffle (kArgs x P nbrPad K Ho Wo) b (P.count b.ho) s n
        = .ok ⟨sh', fun tid c => if tid < kThreads ∧ c < P.kPad / 2 then
          (if (if n * 16 = 0 then 0 else 1) = 0 then 0 else s.acc tid c) + Q (fragM tid c) (fragN tid c) else s.acc tid c⟩ := by
      simp only [sm90Step, nzChunk, bcTile, Nat.zero_add, show 8 * 8 * 16 = 1024 from rfl, h1]
      have : (kArgs x P nbrPad K Ho Wo).N = P.kPad := rfl
      simp only [this, q1]
      rfl
    show ∃ s', sm90Step _ _ _ _ _ _ s n = _ ∧ _
    rw [hstep]
    refine ⟨_, rfl, ?_⟩
    intro tid ht c hc
    obtain ⟨f1, f2⟩ := frag_lt hg.hN ht hc
    dsimp only
    rw [if_pos ⟨ht, hc⟩, q2 _ f1 _ f2, ← tileSum_add, ← e2 tid ht c hc]
    congr 1
    by_cases h0 : n = 0
    · subst h0
      rw [if_pos (by simp), e2 tid ht c hc]
      simp [tileSum]
    · rw [if_neg]
      rw [if_neg (by omega)]
      norm_num

theorem sm100_loop {x : Ten R} {P : KPacked R} {nbrPad K Ho Wo : ℕ} (hg : Good x P nbrPad K Ho Wo) {b : KBlock} (hb : Inside b Ho Wo)
    {base : ℕ} (hal : 16 ∣ base) (hlt : base + 4096 < 2 ^ 18) (bf16 : Bool) (junk : ℕ → R) (tmJunk : ℕ → ℕ → R)
    (shuffle : ℕ → List (ℕ × R) → List (ℕ × R)) (hsh : ∀ j l, (shuffle j l).Perm l) (n : ℕ)
    (hn : n ≤ (P.count b.ho + (nzChunk - 1)) / nzChunk) :
    ∃ s, (List.range n).foldlM (sm100Step ((128 + bcTile * nzChunk * 8 * 2 + nzChunk * P.kPad * 2) / 2) base bf16 shuffle
        (kArgs x P nbrPad K Ho Wo) b (P.count b.ho)) (⟨junk, tmemZero P.kPad tmJunk, 0, none⟩ : Sm100 R) = .ok s ∧
      s.pending = none ∧ (n * 16 < P.count b.ho → s.phase = 0) ∧ (∀ e < 64, s.sh e = junk e) ∧
      ∀ m < 64, ∀ k < P.kPad, s.tm m k = tileSum x P Wo b m k (n * 16) := by
  have hsz : (128 + bcTile * nzChunk * 8 * 2 + nzChunk * P.kPad * 2) / 2 = 64 + 1024 + 16 * P.kPad := by
    unfold bcTile nzChunk; omega
  rw [hsz]
  induction n with
  | zero =>
    refine ⟨_, rfl, rfl, fun _ => rfl, fun _ _ => rfl, fun m hm k hk => ?_⟩
    dsimp only
    unfold tmemZero
    rw [if_pos (frag_surj hg.hN hm hk)]
    simp [tileSum]
  | succ n ih =>
    obtain ⟨s, e1, e2, e3, e4, e5⟩ := ih (by omega)
    have hn16 : n * 16 < P.count b.ho := by
      unfold nzChunk at hn
      omega
    rw [foldlM_range_succ, e1]
    obtain ⟨sh', h1, h2, h3, h4⟩ := stage_ok hg hb (64 + 1024 + 16 * P.kPad) 64 (n * 16) le_rfl (shuffle n) (hsh n) s.sh
    obtain ⟨Q, q1, q2⟩ := product_ok (size := 64 + 1024 + 16 * P.kPad) (base := base) (tileA := 64) le_rfl hg.hN (by
        obtain ⟨q, rfl⟩ := hal
        exact ⟨q + 8, by omega⟩) (by omega) sh' h2 h3 _ _ (Or.inr rfl) (Or.inr rfl)
    obtain ⟨i1, i2, i3, i4, i5, i6, i7⟩ := instr_eq P.kPad hg.hN bf16
    have hissue : mmaIssue (64 + 1024 + 16 * P.kPad) base bf16 (ummaDesc (base + 2 * 64) (8 * 16) (16 * 16))
        (ummaDesc (base + 2 * (64 + 1024)) (8 * 16) (16 * 16)) (instrDesc P.kPad bf16) 1 { s with sh := sh' }
        = .ok ⟨sh', s.tm, s.phase, some fun m k => if m < 4 * 16 ∧ k < P.kPad then s.tm m k + Q m k else s.tm m k⟩ := by
      unfold mmaIssue
      simp only [e2, i1, i2, i3, i4, i5, i6, i7, Option.isSome_none, Bool.false_eq_true, if_false, and_self, not_true_eq_false, beq_self_eq_true,
        show 4 * 16 = 64 from rfl, q1, one_ne_zero]
    have hstep : sm100Step (64 + 1024 + 16 * P.kPad) base bf16 shuffle (kArgs x P nbrPad K Ho Wo) b (P.count b.ho) s n
        = .ok ⟨sh', fun m k => if m < 4 * 16 ∧ k < P.kPad then s.tm m k + Q m k else s.tm m k,
          if n * 16 + 16 < P.count b.ho then 0 else 1, none⟩ := by
      have hNk : (kArgs x P nbrPad K Ho Wo).N = P.kPad := rfl
      simp only [e2] at hissue
      simp only [sm100Step, nzChunk, bcTile, e2, Option.isSome_none, Bool.false_eq_true, if_false, show 128 / 2 = 64 from rfl,
        show 8 * 8 * 16 = 1024 from rfl, h1, hNk, hissue]
      simp only [mmaWait, e3 hn16, Nat.zero_mod, zero_ne_one, if_false]
      by_cases hc : n * 16 + 16 < P.count b.ho
      · rw [if_pos hc, if_pos hc]
      · rw [if_neg hc, if_neg hc]
    show ∃ s', sm100Step _ _ _ _ _ _ _ s n = _ ∧ _
    rw [hstep]
    refine ⟨_, rfl, rfl, ?_, ?_, ?_⟩
    · intro h
      dsimp only
      rw [if_pos (by omega)]
    · intro e he
      dsimp only
      rw [h4 e he, e4 e he]
    · intro m hm k hk
      dsimp only
      rw [if_pos ⟨by omega, hk⟩, q2 m hm k hk, e5 m hm k hk, tileSum_add]

/-- The value the block computes for a plane, kernel and longitude of its tile. -/
theorem tileSum_eq (x : Ten R) (P : KPacked R) (Wo : ℕ) (b : KBlock) (m n : ℕ) (hbc : b.bcStart + m / 8 < x.d0) :
    tileSum x P Wo b m n (P.count b.ho) = ∑ z ∈ range (P.count b.ho), P.val b.ho z n *
      x.val (b.bcStart + m / 8) (P.idx b.ho z).1 (((P.idx b.ho z).2 + (b.woBase + m % 8) * (x.d2 / Wo)) % x.d2) := by
  unfold tileSum
  apply sum_congr rfl
  intro z hz
  have hz := mem_range.1 hz
  unfold aVal bVal
  rw [if_pos ⟨hz, hbc⟩, if_pos hz, mul_comm]

/-- The value at `(bc, k, t, p)`. -/
def kVal (x : Ten R) (P : KPacked R) (Wo bc k t p : ℕ) : R :=
  ∑ z ∈ range (P.count t), P.val t z k * x.val bc (P.idx t z).1 (((P.idx t z).2 + p * (x.d2 / Wo)) % x.d2)

omit [CommSemiring R] in
theorem mem_writeback {a : KArgs R} {b : KBlock} (hN : a.N = 8 ∨ a.N = 16) (acc : ℕ → ℕ → R) (tid : ℕ) (s : ℕ × R) :
    s ∈ writeback a b acc tid ↔ ∃ c < a.N / 2, fragN tid c < a.K ∧ b.bcStart + fragM tid c / 8 < a.BC ∧
      s = (((b.bcStart + fragM tid c / 8) * a.K + fragN tid c) * a.Ho * a.Wo + b.ho * a.Wo + (b.woBase + fragM tid c % 8), acc tid c) := by
  have hlane : tid - tid / 32 * 32 = tid % 32 := by omega
  have hcell : ∀ (bc wo k : ℕ) (v : R), s ∈ (if k ≥ a.K then [] else if bc ≥ a.BC then []
      else [((bc * a.K + k) * a.Ho * a.Wo + b.ho * a.Wo + wo, v)]) ↔
      k < a.K ∧ bc < a.BC ∧ s = ((bc * a.K + k) * a.Ho * a.Wo + b.ho * a.Wo + wo, v) := by
    intro bc wo k v
    by_cases h1 : k ≥ a.K
    · rw [if_pos h1]
      constructor
      · intro h; cases h
      · intro h; omega
    · rw [if_neg h1]
      by_cases h2 : bc ≥ a.BC
      · rw [if_pos h2]
        constructor
        · intro h; cases h
        · intro h; omega
      · rw [if_neg h2, List.mem_singleton]
        exact ⟨fun h => ⟨by omega, by omega, h⟩, fun h => h.2.2⟩
  unfold writeback
  simp only [hlane, List.mem_flatMap, List.mem_range, List.mem_append, hcell]
  constructor
  · rintro ⟨ng, hng, ((h | h) | h) | h⟩
    · refine ⟨ng * 4 + 0, by omega, ?_⟩
      have e1 : fragN tid (ng * 4 + 0) = tid % 32 % 4 * 2 + 8 * ng := by unfold fragN; omega
      have e2 : fragM tid (ng * 4 + 0) = tid / 32 * 16 + tid % 32 / 4 := by unfold fragM; omega
      rw [e1, e2]
      exact h
    · refine ⟨ng * 4 + 1, by omega, ?_⟩
      have e1 : fragN tid (ng * 4 + 1) = tid % 32 % 4 * 2 + 1 + 8 * ng := by unfold fragN; omega
      have e2 : fragM tid (ng * 4 + 1) = tid / 32 * 16 + tid % 32 / 4 := by unfold fragM; omega
      rw [e1, e2]
      exact h
    · refine ⟨ng * 4 + 2, by omega, ?_⟩
      have e1 : fragN tid (ng * 4 + 2) = tid % 32 % 4 * 2 + 8 * ng := by unfold fragN; omega
      have e2 : fragM tid (ng * 4 + 2) = tid / 32 * 16 + tid % 32 / 4 + 8 := by unfold fragM; omega
      rw [e1, e2]
      exact h
    · refine ⟨ng * 4 + 3, by omega, ?_⟩
      have e1 : fragN tid (ng * 4 + 3) = tid % 32 % 4 * 2 + 1 + 8 * ng := by unfold fragN; omega
      have e2 : fragM tid (ng * 4 + 3) = tid / 32 * 16 + tid % 32 / 4 + 8 := by unfold fragM; omega
      rw [e1, e2]
      exact h
  · rintro ⟨c, hc, h⟩
    have hcase : c = c / 4 * 4 + 0 ∨ c = c / 4 * 4 + 1 ∨ c = c / 4 * 4 + 2 ∨ c = c / 4 * 4 + 3 := by omega
    refine ⟨c / 4, by rcases hN with h | h <;> omega, ?_⟩
    rcases hcase with e | e | e | e
    · have e1 : fragN tid c = tid % 32 % 4 * 2 + 8 * (c / 4) := by unfold fragN; omega
      have e2 : fragM tid c = tid / 32 * 16 + tid % 32 / 4 := by unfold fragM; omega
      rw [e1, e2] at h
      rw [← e]
      exact Or.inl (Or.inl (Or.inl h))
    · have e1 : fragN tid c = tid % 32 % 4 * 2 + 1 + 8 * (c / 4) := by unfold fragN; omega
      have e2 : fragM tid c = tid / 32 * 16 + tid % 32 / 4 := by unfold fragM; omega
      rw [e1, e2] at h
      rw [← e]
      exact Or.inl (Or.inl (Or.inr h))
    · have e1 : fragN tid c = tid % 32 % 4 * 2 + 8 * (c / 4) := by unfold fragN; omega
      have e2 : fragM tid c = tid / 32 * 16 + tid % 32 / 4 + 8 := by unfold fragM; omega
      rw [e1, e2] at h
      rw [← e]
      exact Or.inl (Or.inr h)
    · have e1 : fragN tid c = tid % 32 % 4 * 2 + 1 + 8 * (c / 4) := by unfold fragN; omega
      have e2 : fragM tid c = tid / 32 * 16 + tid % 32 / 4 + 8 := by unfold fragM; omega
      rw [e1, e2] at h
      rw [← e]
      exact Or.inr h

/-- The stores of a block: one for each plane, kernel and longitude of its tile. -/
def BlockStores (x : Ten R) (P : KPacked R) (K Ho Wo : ℕ) (b : KBlock) (l : List (ℕ × R)) : Prop :=
  ∀ s, s ∈ l ↔ ∃ m < 64, ∃ k, k < P.kPad ∧ k < K ∧ b.bcStart + m / 8 < x.d0 ∧
    s = (((b.bcStart + m / 8) * K + k) * Ho * Wo + b.ho * Wo + (b.woBase + m % 8),
      kVal x P Wo (b.bcStart + m / 8) k b.ho (b.woBase + m % 8))

theorem blockStores_of {x : Ten R} {P : KPacked R} {nbrPad K Ho Wo : ℕ} (hN : P.kPad = 8 ∨ P.kPad = 16) (b : KBlock) (acc : ℕ → ℕ → R)
    (h : ∀ tid < kThreads, ∀ c < P.kPad / 2, acc tid c = tileSum x P Wo b (fragM tid c) (fragN tid c) (P.count b.ho)) :
    BlockStores x P K Ho Wo b ((List.range kThreads).flatMap (writeback (kArgs x P nbrPad K Ho Wo) b acc)) := by
  intro s
  rw [List.mem_flatMap]
  constructor
  · rintro ⟨tid, ht, hs⟩
    have ht := List.mem_range.1 ht
    obtain ⟨c, hc, h1, h2, rfl⟩ := (mem_writeback (a := kArgs x P nbrPad K Ho Wo) hN acc tid s).1 hs
    have hc : c < P.kPad / 2 := hc
    obtain ⟨f1, f2⟩ := frag_lt hN ht hc
    refine ⟨fragM tid c, f1, fragN tid c, f2, h1, h2, ?_⟩
    rw [h tid ht c hc, tileSum_eq _ _ _ _ _ _ h2]
    rfl
  · rintro ⟨m, hm, k, hk, hK, hbc, rfl⟩
    obtain ⟨tid, ht, c, hc, rfl, rfl⟩ := frag_surj hN hm hk
    refine ⟨tid, List.mem_range.2 ht, (mem_writeback (a := kArgs x P nbrPad K Ho Wo) hN acc tid _).2 ⟨c, hc, hK, hbc, ?_⟩⟩
    rw [h tid ht c hc, tileSum_eq _ _ _ _ _ _ hbc]
    rfl

omit [CommSemiring R] in
theorem inside_block {x : Ten R} {P : KPacked R} {nbrPad K Ho Wo : ℕ} (hg : Good x P nbrPad K Ho Wo) {bx by_ : ℕ} (hbx : bx < Ho * (Wo / 8)) :
    Inside (kBlock (kArgs x P nbrPad K Ho Wo) bx by_) Ho Wo := by
  have hW := hg.hWo
  have hp := hg.hpos
  have h8 : 0 < Wo / 8 := by omega
  have hmod : bx - bx / (Wo / 8) * (Wo / 8) = bx % (Wo / 8) := by
    have := Nat.div_add_mod bx (Wo / 8)
    rw [Nat.mul_comm] at this
    omega
  have hlt := Nat.mod_lt bx h8
  refine ⟨?_, ?_⟩
  · show bx / (Wo / 8) < Ho
    exact Nat.div_lt_of_lt_mul (by rwa [Nat.mul_comm])
  · show (bx - bx / (Wo / 8) * (Wo / 8)) * 8 + 8 ≤ Wo
    rw [hmod]
    omega

omit [CommSemiring R] in
theorem count_get {x : Ten R} {P : KPacked R} {nbrPad K Ho Wo t : ℕ} (ht : t < Ho) :
    (kArgs x P nbrPad K Ho Wo).cnt.get t = .ok (P.count t) := by
  show (if t < Ho then _ else _) = _
  rw [if_pos ht]
  rfl

theorem sm90_block {x : Ten R} {P : KPacked R} {nbrPad K Ho Wo : ℕ} (hg : Good x P nbrPad K Ho Wo) {base : ℕ} (hal : 16 ∣ base)
    (hlt : base + 4096 < 2 ^ 18) (junk : ℕ → R) (shuffle : ℕ → List (ℕ × R) → List (ℕ × R)) (hsh : ∀ j l, (shuffle j l).Perm l)
    {bx by_ : ℕ} (hbx : bx < Ho * (Wo / 8)) :
    ∃ l, sm90Block base junk shuffle (kArgs x P nbrPad K Ho Wo) bx by_ = .ok l ∧
      BlockStores x P K Ho Wo (kBlock (kArgs x P nbrPad K Ho Wo) bx by_) l := by
  have hb := inside_block hg (by_ := by_) hbx
  obtain ⟨s, e1, e2⟩ := sm90_loop hg hb hal hlt junk shuffle hsh
    ((P.count (kBlock (kArgs x P nbrPad K Ho Wo) bx by_).ho + (nzChunk - 1)) / nzChunk)
  refine ⟨_, ?_, blockStores_of (nbrPad := nbrPad) hg.hN _ s.acc fun tid ht c hc => by rw [e2 tid ht c hc, tileSum_all]⟩
  have hNk : (kArgs x P nbrPad K Ho Wo).N = P.kPad := rfl
  simp only [sm90Block, count_get hb.ho, hNk, e1]

theorem sm100_block {x : Ten R} {P : KPacked R} {nbrPad K Ho Wo : ℕ} (hg : Good x P nbrPad K Ho Wo) {base : ℕ} (hal : 16 ∣ base)
    (hlt : base + 4096 < 2 ^ 18) (bf16 : Bool) (junk : ℕ → R) (tmJunk : ℕ → ℕ → R) (shuffle : ℕ → List (ℕ × R) → List (ℕ × R))
    (hsh : ∀ j l, (shuffle j l).Perm l) {bx by_ : ℕ} (hbx : bx < Ho * (Wo / 8)) :
    ∃ l, sm100Block base bf16 junk tmJunk shuffle (kArgs x P nbrPad K Ho Wo) bx by_ = .ok l ∧
      BlockStores x P K Ho Wo (kBlock (kArgs x P nbrPad K Ho Wo) bx by_) l := by
  have hb := inside_block hg (by_ := by_) hbx
  obtain ⟨s, e1, e2, -, -, e5⟩ := sm100_loop hg hb hal hlt bf16 junk tmJunk shuffle hsh
    ((P.count (kBlock (kArgs x P nbrPad K Ho Wo) bx by_).ho + (nzChunk - 1)) / nzChunk) le_rfl
  refine ⟨_, ?_, blockStores_of (nbrPad := nbrPad) hg.hN _ (fun tid c => s.tm (fragM tid c) (fragN tid c)) fun tid ht c hc => by
    obtain ⟨f1, f2⟩ := frag_lt hg.hN ht hc
    rw [e5 _ f1 _ f2, tileSum_all]⟩
  have hNk : (kArgs x P nbrPad K Ho Wo).N = P.kPad := rfl
  simp only [sm100Block, count_get hb.ho, hNk, e1, e2, Option.isSome_none, Bool.false_eq_true, if_false]

/-- How the machine may resolve what the program leaves open: dynamic shared memory is aligned to 16 bytes and lies below 256 KiB, as
a descriptor can express, and no store is lost or duplicated. -/
structure KRun.Legal (r : KRun R) : Prop where
  aligned : 16 ∣ r.base
  low : r.base + 4096 < 2 ^ 18
  shuffle : ∀ bx by_ j l, (r.shuffle bx by_ j l).Perm l
  final : ∀ l, (r.final l).Perm l

theorem launch_ok {x : Ten R} {P : KPacked R} {nbrPad K Ho Wo : ℕ} (hg : Good x P nbrPad K Ho Wo) (targets : List KTarget) (d : KDevice)
    (bf16 : Bool) (r : KRun R) (hr : r.Legal) (hbody : bodyPresent targets d = some true)
    (hgx : 0 < Ho ∧ Ho * (Wo / 8) < 2 ^ 31) (hgy : 0 < x.d0 ∧ x.d0 ≤ 8 * 65535) :
    ∃ v, kLaunch targets d bf16 r (kArgs x P nbrPad K Ho Wo) = .ok ⟨x.d0 * K * Ho * Wo, v⟩ ∧
      ∀ bc < x.d0, ∀ k < K, ∀ t < Ho, ∀ p < Wo,
        v (((bc * K + k) * Ho + t) * Wo + p) = if k < P.kPad then kVal x P Wo bc k t p else 0 := by
  have hW := hg.hWo
  have hp := hg.hpos
  have h8 : 0 < Wo / 8 := by omega
  have hblock : ∀ q ∈ kGrid (kArgs x P nbrPad K Ho Wo), ∃ l,
      (if d.major = 10 then sm100Block r.base bf16 (r.junk q.1 q.2) (r.tmJunk q.1 q.2) (r.shuffle q.1 q.2) (kArgs x P nbrPad K Ho Wo) q.1 q.2
        else sm90Block r.base (r.junk q.1 q.2) (r.shuffle q.1 q.2) (kArgs x P nbrPad K Ho Wo) q.1 q.2) = .ok l ∧
      BlockStores x P K Ho Wo (kBlock (kArgs x P nbrPad K Ho Wo) q.1 q.2) l := by
    rintro ⟨bx, by_⟩ hq
    unfold kGrid at hq
    simp only [List.mem_flatMap, List.mem_range, List.mem_map] at hq
    obtain ⟨bx', hbx, by', hby, hq⟩ := hq
    cases hq
    have hbx : bx < Ho * (Wo / 8) := hbx
    by_cases hd : d.major = 10
    · simp only [if_pos hd]
      exact sm100_block hg hr.aligned hr.low bf16 _ _ _ (hr.shuffle bx by_) hbx
    · simp only [if_neg hd]
      exact sm90_block hg hr.aligned hr.low _ _ (hr.shuffle bx by_) hbx
  choose! L hL1 hL2 using hblock
  have hmap := mapM_ok _ L _ hL1
  set ls := ((kGrid (kArgs x P nbrPad K Ho Wo)).map L).flatten with hls
  have hmem : ∀ s, s ∈ r.final ls ↔ ∃ bc < x.d0, ∃ k, k < P.kPad ∧ k < K ∧ ∃ t < Ho, ∃ p < Wo,
      s = (((bc * K + k) * Ho + t) * Wo + p, kVal x P Wo bc k t p) := by
    intro s
    rw [(hr.final ls).mem_iff, hls, List.mem_flatten]
    constructor
    · rintro ⟨l, hl, hs⟩
      obtain ⟨q, hq, rfl⟩ := List.mem_map.1 hl
      have hq' := hq
      unfold kGrid at hq'
      simp only [List.mem_flatMap, List.mem_range, List.mem_map] at hq'
      obtain ⟨bx, hbx, by', hby, rfl⟩ := hq'
      have hbx : bx < Ho * (Wo / 8) := hbx
      obtain ⟨m, hm, k, hk, hK, hbc, rfl⟩ := (hL2 _ hq s).1 hs
      have hb := inside_block hg (by_ := by') hbx
      exact ⟨_, hbc, k, hk, hK, _, hb.ho, (kBlock (kArgs x P nbrPad K Ho Wo) bx by').woBase + m % 8, (by have := hb.wo; omega), by congr 1; ring⟩
    · rintro ⟨bc, hbc, k, hk, hK, t, ht, p, hpW, rfl⟩
      have hp8 : p / 8 < Wo / 8 := by omega
      have hq : (t * (Wo / 8) + p / 8, bc / 8) ∈ kGrid (kArgs x P nbrPad K Ho Wo) := by
        unfold kGrid
        simp only [List.mem_flatMap, List.mem_range, List.mem_map]
        refine ⟨_, flat_lt ht hp8, bc / 8, ?_, rfl⟩
        show bc / 8 < (x.d0 + 8 - 1) / 8
        omega
      have hblk : kBlock (kArgs x P nbrPad K Ho Wo) (t * (Wo / 8) + p / 8) (bc / 8) = ⟨t, p / 8 * 8, bc / 8 * 8⟩ := by
        show (⟨(t * (Wo / 8) + p / 8) / (Wo / 8), ((t * (Wo / 8) + p / 8) - (t * (Wo / 8) + p / 8) / (Wo / 8) * (Wo / 8)) * 8, bc / 8 * 8⟩ : KBlock) = _
        rw [flat_div hp8]
        congr 2
        omega
      refine ⟨L _, List.mem_map.2 ⟨_, hq, rfl⟩, (hL2 _ hq _).2 ?_⟩
      rw [hblk]
      have e1 : (bc % 8 * 8 + p % 8) / 8 = bc % 8 := by omega
      have e2 : (bc % 8 * 8 + p % 8) % 8 = p % 8 := by omega
      have e3 : bc / 8 * 8 + bc % 8 = bc := by omega
      have e4 : p / 8 * 8 + p % 8 = p := by omega
      refine ⟨bc % 8 * 8 + p % 8, by omega, k, hk, hK, ?_⟩
      dsimp only
      rw [e1, e2, e3, e4]
      refine ⟨hbc, ?_⟩
      congr 1
      ring
  obtain ⟨v, v1, v2⟩ := storeAll_ok (x.d0 * K * Ho * Wo) (fun e => kVal x P Wo (e / Wo / Ho / K) (e / Wo / Ho % K) (e / Wo % Ho) (e % Wo))
    (r.final ls) (by
      intro s hs
      obtain ⟨bc, hbc, k, hk, hK, t, ht, p, hpW, rfl⟩ := (hmem s).1 hs
      refine ⟨flat_lt (flat_lt (flat_lt hbc hK) ht) hpW, ?_⟩
      dsimp only
      rw [flat_mod hpW, flat_div hpW, flat_mod ht, flat_div ht, flat_mod hK, flat_div hK]) (fun _ => 0)
  refine ⟨v, ?_, ?_⟩
  · unfold kLaunch
    simp only [hmap]
    rw [if_neg, hbody]
    · have : (kArgs x P nbrPad K Ho Wo).BC * (kArgs x P nbrPad K Ho Wo).K * (kArgs x P nbrPad K Ho Wo).Ho * (kArgs x P nbrPad K Ho Wo).Wo
          = x.d0 * K * Ho * Wo := rfl
      simp only [this, ← hls, v1]
    · have hx : (kArgs x P nbrPad K Ho Wo).Ho * ((kArgs x P nbrPad K Ho Wo).Wo / woTile) = Ho * (Wo / 8) := rfl
      have hy : ((kArgs x P nbrPad K Ho Wo).BC + bcTile - 1) / bcTile = (x.d0 + 7) / 8 := rfl
      rw [hx, hy]
      have := Nat.mul_pos hgx.1 h8
      have h2 := hgx.2
      generalize Ho * (Wo / 8) = gx at *
      omega
  · intro bc hbc k hK t ht p hpW
    rw [v2]
    rw [flat_mod hpW, flat_div hpW, flat_mod ht, flat_div ht, flat_mod hK, flat_div hK]
    by_cases hk : k < P.kPad
    · rw [if_pos hk, if_pos ⟨_, (hmem _).2 ⟨bc, hbc, k, hk, hK, t, ht, p, hpW, rfl⟩, rfl⟩]
    · rw [if_neg hk, if_neg]
      rintro ⟨s, hs, hse⟩
      obtain ⟨bc', hbc', k', hk', hK', t', ht', p', hpW', rfl⟩ := (hmem s).1 hs
      dsimp only at hse
      have h1 := congrArg (fun e => e / Wo / Ho % K) hse
      rw [flat_div hpW', flat_div hpW, flat_div ht', flat_div ht, flat_mod hK', flat_mod hK] at h1
      omega

end

end Verif.Disco
