import Verif.Lemmas.Arr
import Verif.Model.Declared
import Mathlib.Tactic.Linarith
/-!
Property C99: the layouts the operators declare to the compiler are those of the tensors they return. True of the optimized operators; false of the reference attention
operator, whose result lies in memory channel by channel while it declares the channels innermost.
-/
namespace Verif.Props
open Verif Verif.Attn Verif.Disco

/-- A tensor is as declared: shape, type and strides, that is, positions up to where the tensor starts. -/
def AsDeclared (x d : Lay) : Prop := x.shape = d.shape ∧ x.dt = d.dt ∧ ∃ o, ∀ n < x.shape.prod, x.off n = o + d.off n

theorem alloc_contig (s : List ℕ) (d : KDtype) (m : ℕ) : (Lay.alloc s d m).Contig := ⟨0, fun n _ => (Nat.zero_add n).symm⟩

theorem contig_declared {x : Lay} (h : x.Contig) {s : List ℕ} {d : KDtype} (hs : x.shape = s) (hd : x.dt = d) (m : ℕ) : AsDeclared x (.alloc s d m) :=
  ⟨hs, hd, h⟩

theorem to_shape (x : Lay) (d : KDtype) (m : ℕ) : (x.to d m).shape = x.shape ∧ (x.to d m).dt = d := by
  unfold Lay.to
  split
  · next h => exact ⟨rfl, h⟩
  · split <;> exact ⟨rfl, rfl⟩

theorem to_contig {x : Lay} (h : x.Contig) (d : KDtype) (m : ℕ) : (x.to d m).Contig := by
  unfold Lay.to
  split
  · exact h
  · split
    · exact h
    · exact alloc_contig _ _ _

theorem contiguous_contig (x : Lay) (m : ℕ) : (x.contiguous m).Contig ∧ (x.contiguous m).shape = x.shape ∧ (x.contiguous m).dt = x.dt := by
  unfold Lay.contiguous
  split
  · next h => exact ⟨h, rfl, rfl⟩
  · exact ⟨alloc_contig _ _ _, rfl, rfl⟩

theorem reshape_contig {x : Lay} (h : x.Contig) {s : List ℕ} (hs : s.prod = x.shape.prod) (m : ℕ) :
    ∃ y, x.reshape s m = .ok y ∧ y.shape = s ∧ y.dt = x.dt ∧ y.Contig := by
  unfold Lay.reshape
  rw [if_neg (not_not.2 hs)]
  split
  · refine ⟨_, rfl, rfl, rfl, ?_⟩
    obtain ⟨o, ho⟩ := h
    exact ⟨o, fun n hn => ho n (by rw [← hs]; exact hn)⟩
  · exact ⟨_, rfl, rfl, rfl, alloc_contig _ _ _⟩

theorem reshape_shape {x : Lay} {s : List ℕ} (hs : s.prod = x.shape.prod) (m : ℕ) : ∃ y, x.reshape s m = .ok y ∧ y.shape = s ∧ y.dt = x.dt := by
  unfold Lay.reshape
  rw [if_neg (not_not.2 hs)]
  split <;> exact ⟨_, rfl, rfl, rfl⟩

theorem reshape_view {x : Lay} {s : List ℕ} (hs : s.prod = x.shape.prod) (hv : Strided x.off s) (m : ℕ) : x.reshape s m = .ok ⟨s, x.dt, x.mem, x.off⟩ := by
  unfold Lay.reshape
  rw [if_neg (not_not.2 hs), if_pos hv]

theorem lay_permute_off (x : Lay) (dims i : List ℕ) (h : Inside i (dims.map fun a => x.shape.getD a 0)) :
    (x.permute dims).off (flat (dims.map fun a => x.shape.getD a 0) i) = x.off (flat x.shape ((List.range x.shape.length).map fun a => i.getD (dims.idxOf a) 0)) := by
  unfold Lay.permute
  dsimp only
  rw [unflat_flat h]

/-- The row-major order of `n` axes is given by strides. -/
theorem strided_id5 (A B C D E : ℕ) : Strided id [A, B, C, D, E] := by
  refine ⟨0, [B * C * D * E, C * D * E, D * E, E, 1], fun i hi => ?_⟩
  cases hi with
  | cons _ hi => cases hi with
    | cons _ hi => cases hi with
      | cons _ hi => cases hi with
        | cons _ hi => cases hi with
          | cons _ hi =>
            cases hi
            simp only [id, flat5, dotStrides]
            ring

theorem four {i : List ℕ} {A B C D : ℕ} (h : Inside i [A, B, C, D]) : ∃ a b c d, i = [a, b, c, d] ∧ a < A ∧ b < B ∧ c < C ∧ d < D := by
  cases h with
  | cons ha h => cases h with
    | cons hb h => cases h with
      | cons hc h => cases h with
        | cons hd h => cases h; exact ⟨_, _, _, _, rfl, ha, hb, hc, hd⟩

/-- C99, the reference attention operator: its result has the shape and type it declares, if queries and keys have the same batch, but entry `(b, h, w, c)` is at the place of `(b, c, h, w)`. -/
theorem C99_reference (nh C nlatOut nlonOut : ℕ) (hn : 0 < nh) (v q : List ℕ) (hv : v.getD 3 0 = nh * C) (kdt : KDtype) (m : ℕ → ℕ) :
    ∃ y, refLayout nh nlatOut nlonOut v q kdt m = .ok y ∧ y.shape = [q.getD 0 0, nlatOut, nlonOut, v.getD 3 0] ∧ y.dt = kdt ∧
      ∀ b < q.getD 0 0, ∀ h < nlatOut, ∀ w < nlonOut, ∀ c < v.getD 3 0,
        y.off (flat y.shape [b, h, w, c]) = flat [q.getD 0 0, v.getD 3 0, nlatOut, nlonOut] [b, c, h, w] := by
  unfold refLayout
  dsimp only
  rw [hv, Nat.mul_div_cancel_left _ hn]
  generalize q.getD 0 0 = B
  rw [reshape_view (s := [B, nh, C, nlatOut, nlonOut]) (by simp only [Lay.alloc, List.prod_cons, List.prod_nil]; ring) (strided_id5 _ _ _ _ _)]
  set y1 : Lay := ⟨[B, nh, C, nlatOut, nlonOut], .f32, m 0, id⟩ with hy1
  change ∃ y, (do let y ← (y1.permute [0, 3, 4, 1, 2]).reshape [B, nlatOut, nlonOut, nh * C] (m 2); pure (y.to kdt (m 3))) = _ ∧ _
  -- positions after the permutation
  have hoff : ∀ b < B, ∀ h < nlatOut, ∀ w < nlonOut, ∀ c < nh * C,
      (y1.permute [0, 3, 4, 1, 2]).off (flat [B, nlatOut, nlonOut, nh * C] [b, h, w, c]) = flat [B, nh * C, nlatOut, nlonOut] [b, c, h, w] := by
    intro b hb h hh w hw c hc
    have hC : 0 < C := Nat.pos_of_ne_zero fun h0 => by rw [h0] at hc; simp at hc
    have h1 : c / C < nh := Nat.div_lt_of_lt_mul (by rw [Nat.mul_comm]; exact hc)
    have h2 : c % C < C := Nat.mod_lt _ hC
    have e : flat [B, nlatOut, nlonOut, nh * C] [b, h, w, c] = flat [B, nlatOut, nlonOut, nh, C] [b, h, w, c / C, c % C] := by
      rw [flat4, flat5]
      have := Nat.div_add_mod c C
      calc ((b * nlatOut + h) * nlonOut + w) * (nh * C) + c = ((b * nlatOut + h) * nlonOut + w) * (nh * C) + (C * (c / C) + c % C) := by rw [this]
        _ = _ := by ring
    rw [e]
    have := lay_permute_off y1 [0, 3, 4, 1, 2] [b, h, w, c / C, c % C] (inside5 hb hh hw h1 h2)
    refine this.trans ?_
    change flat [B, nh, C, nlatOut, nlonOut] [b, c / C, c % C, h, w] = _
    rw [flat4, flat5]
    have := Nat.div_add_mod c C
    calc (((b * nh + c / C) * C + c % C) * nlatOut + h) * nlonOut + w = ((b * nh * C + (C * (c / C) + c % C)) * nlatOut + h) * nlonOut + w := by ring
      _ = _ := by rw [this]; ring
  have hst : Strided (y1.permute [0, 3, 4, 1, 2]).off [B, nlatOut, nlonOut, nh * C] := by
    refine ⟨0, [nh * C * nlatOut * nlonOut, nlonOut, 1, nlatOut * nlonOut], fun i hi => ?_⟩
    obtain ⟨b, h, w, c, rfl, hb, hh, hw, hc⟩ := four hi
    rw [hoff b hb h hh w hw c hc, flat4]
    simp only [dotStrides]
    ring
  rw [reshape_view (by simp [Lay.permute, y1]) hst]
  change ∃ y, Except.ok (Lay.to _ kdt (m 3)) = Except.ok y ∧ _
  refine ⟨_, rfl, ?_⟩
  generalize (y1.permute [0, 3, 4, 1, 2]).dt = d1
  generalize (y1.permute [0, 3, 4, 1, 2]).mem = m1
  generalize (y1.permute [0, 3, 4, 1, 2]).off = off at hoff
  obtain ⟨t1, t2⟩ := to_shape ⟨[B, nlatOut, nlonOut, nh * C], d1, m1, off⟩ kdt (m 3)
  refine ⟨t1, t2, fun b hb h hh w hw c hc => ?_⟩
  rw [t1]
  refine Eq.trans ?_ (hoff b hb h hh w hw c hc)
  unfold Lay.to
  dsimp only
  split
  · rfl
  · rw [if_pos]
    have key : ∀ n < [B, nlatOut, nlonOut, nh * C].prod, ∃ b h w c, b < B ∧ h < nlatOut ∧ w < nlonOut ∧ c < nh * C ∧
        n = flat [B, nlatOut, nlonOut, nh * C] [b, h, w, c] ∧ off n = flat [B, nh * C, nlatOut, nlonOut] [b, c, h, w] := by
      intro n hn
      obtain ⟨f1, f2⟩ := flat_unflat hn
      obtain ⟨b, h, w, c, e, hb, hh, hw, hc⟩ := four f2
      rw [e] at f1
      exact ⟨b, h, w, c, hb, hh, hw, hc, f1.symm, by rw [← f1]; exact hoff b hb h hh w hw c hc⟩
    constructor
    · intro n hn
      obtain ⟨b, h, w, c, hb, hh, hw, hc, -, e⟩ := key n hn
      rw [e]
      have := flat_lt (inside4 hb hc hh hw)
      refine this.trans_le (le_of_eq ?_)
      simp only [List.prod_cons, List.prod_nil]
      ring
    · intro n hn n' hn' he
      obtain ⟨b, h, w, c, hb, hh, hw, hc, e1, e2⟩ := key n hn
      obtain ⟨b', h', w', c', hb', hh', hw', hc', e1', e2'⟩ := key n' hn'
      rw [e2, e2'] at he
      have h3 := congrArg (unflat [B, nh * C, nlatOut, nlonOut]) he
      rw [unflat_flat (inside4 hb hc hh hw), unflat_flat (inside4 hb' hc' hh' hw')] at h3
      simp only [List.cons.injEq, and_true] at h3
      obtain ⟨rfl, rfl, rfl, rfl⟩ := h3
      rw [e1, e1']

/-- C99, negation: the layout the reference operator declares is that of its result only in degenerate cases: no item, at most one channel, or at most one point. -/
theorem C99_reference_strides (nh C nlatOut nlonOut : ℕ) (hn : 0 < nh) (k v q : List ℕ) (hv : v.getD 3 0 = nh * C) (hk : k.getD 0 0 = q.getD 0 0)
    (kdt : KDtype) (m : ℕ → ℕ) (m' : ℕ) (y : Lay) (hy : refLayout nh nlatOut nlonOut v q kdt m = .ok y) :
    AsDeclared y (declaredAttention nlatOut nlonOut k v kdt m') ↔ q.getD 0 0 = 0 ∨ nh * C ≤ 1 ∨ nlatOut * nlonOut ≤ 1 := by
  obtain ⟨y', h1, h2, h3, h4⟩ := C99_reference nh C nlatOut nlonOut hn v q hv kdt m
  rw [hy] at h1
  cases h1
  rw [hv] at h2 h4
  generalize q.getD 0 0 = B at *
  constructor
  · rintro ⟨-, -, o, ho⟩
    by_contra hcon
    push Not at hcon
    obtain ⟨c1, c2, c3⟩ := hcon
    have hB : 0 < B := by omega
    have hH : 0 < nlatOut := Nat.pos_of_ne_zero fun h => by rw [h] at c3; simp at c3
    have hW : 0 < nlonOut := Nat.pos_of_ne_zero fun h => by rw [h] at c3; simp at c3
    have g0 := h4 0 hB 0 hH 0 hW 0 (by omega)
    have g1 := h4 0 hB 0 hH 0 hW 1 (by omega)
    have p0 := ho _ (flat_lt (h2 ▸ inside4 hB hH hW (show 0 < nh * C by omega)))
    have p1 := ho _ (flat_lt (h2 ▸ inside4 hB hH hW (show 1 < nh * C by omega)))
    rw [g0] at p0
    rw [g1] at p1
    rw [h2, flat4] at p0 p1
    rw [flat4] at p0 p1
    simp only [declaredAttention, Lay.alloc, id] at p0 p1
    simp at p0 p1
    rw [← p0] at p1
    omega
  · intro hd
    refine ⟨by rw [h2]; simp only [declaredAttention, Lay.alloc, hk, hv], h3, 0, fun n hn' => ?_⟩
    rw [h2] at hn'
    obtain ⟨f1, f2⟩ := flat_unflat hn'
    obtain ⟨b, h, w, c, e, hb, hh, hw, hc⟩ := four f2
    rw [e] at f1
    have g := h4 b hb h hh w hw c hc
    rw [h2, f1] at g
    rw [g, Nat.zero_add]
    change _ = n
    rw [← f1, flat4, flat4]
    rcases hd with hd | hd | hd
    · omega
    · have : nh * C = 1 := by omega
      rw [this] at hc ⊢
      obtain rfl : c = 0 := by omega
      ring
    · have hp : nlatOut * nlonOut = 1 := by have := Nat.mul_pos (show 0 < nlatOut by omega) (show 0 < nlonOut by omega); omega
      obtain ⟨rfl, rfl⟩ := mul_eq_one.1 hp
      obtain rfl : h = 0 := by omega
      obtain rfl : w = 0 := by omega
      ring

/-- C99, negation: whoever reads the result where the declared layout puts entry `(b, h, w, c)` finds another entry of the same item: the one whose number in channel-first order is that
of `(h, w, c)` with the channels last. -/
theorem C99_reference_misread (nh C nlatOut nlonOut : ℕ) (hn : 0 < nh) (v q : List ℕ) (hv : v.getD 3 0 = nh * C)
    (kdt : KDtype) (m : ℕ → ℕ) (y : Lay) (hy : refLayout nh nlatOut nlonOut v q kdt m = .ok y) (value : List ℕ → ℝ) (memory : ℕ → ℝ)
    (hmem : ∀ i, Inside i y.shape → memory (y.off (flat y.shape i)) = value i)
    (b : ℕ) (hb : b < q.getD 0 0) (h : ℕ) (hh : h < nlatOut) (w : ℕ) (hw : w < nlonOut) (c : ℕ) (hc : c < nh * C) :
    let r := (h * nlonOut + w) * (nh * C) + c
    memory ((declaredAttention nlatOut nlonOut q v kdt 0).off (flat [q.getD 0 0, nlatOut, nlonOut, nh * C] [b, h, w, c]))
      = value [b, r % (nlatOut * nlonOut) / nlonOut, r % nlonOut, r / (nlatOut * nlonOut)] := by
  intro r
  obtain ⟨y', h1, h2, h3, h4⟩ := C99_reference nh C nlatOut nlonOut hn v q hv kdt m
  rw [hy] at h1
  cases h1
  rw [hv] at h2 h4
  generalize q.getD 0 0 = B at *
  have hW : 0 < nlonOut := by omega
  have hP : 0 < nlatOut * nlonOut := Nat.mul_pos (by omega) hW
  have hr : r < nh * C * (nlatOut * nlonOut) := by
    have := flat_lt (inside4 (show 0 < 1 by omega) hh hw hc)
    rw [flat4] at this
    simp only [List.prod_cons, List.prod_nil] at this
    calc r = ((0 * nlatOut + h) * nlonOut + w) * (nh * C) + c := by simp only [r]; ring
      _ < 1 * (nlatOut * (nlonOut * (nh * C * 1))) := this
      _ = _ := by ring
  have i1 : r % (nlatOut * nlonOut) / nlonOut < nlatOut := Nat.div_lt_of_lt_mul (by rw [Nat.mul_comm nlonOut]; exact Nat.mod_lt _ hP)
  have i2 : r % nlonOut < nlonOut := Nat.mod_lt _ hW
  have i3 : r / (nlatOut * nlonOut) < nh * C := Nat.div_lt_of_lt_mul (by rw [Nat.mul_comm]; exact hr)
  have hin := h2 ▸ inside4 hb i1 i2 i3
  rw [← hmem _ hin, h4 b hb _ i1 _ i2 _ i3]
  congr 1
  change flat _ _ = _
  rw [flat4, flat4]
  have e1 : r % nlonOut = r % (nlatOut * nlonOut) % nlonOut := (Nat.mod_mod_of_dvd r (Dvd.intro_left _ rfl)).symm
  have e2 := Nat.div_add_mod (r % (nlatOut * nlonOut)) nlonOut
  have e3 := Nat.div_add_mod r (nlatOut * nlonOut)
  rw [e1]
  calc ((b * nlatOut + h) * nlonOut + w) * (nh * C) + c = b * (nh * C) * (nlatOut * nlonOut) + r := by simp only [r]; ring
    _ = b * (nh * C) * (nlatOut * nlonOut) + (nlatOut * nlonOut * (r / (nlatOut * nlonOut))
        + (nlonOut * (r % (nlatOut * nlonOut) / nlonOut) + r % (nlatOut * nlonOut) % nlonOut)) := by rw [e2, e3]
    _ = _ := by ring

/-- C99, negation: with one head the reference operator broadcasts keys and values of batch 1; it then returns the batch of the queries and declares that of the keys. -/
theorem C99_reference_batch (nlatOut nlonOut : ℕ) (k v q : List ℕ) (hk : k.getD 0 0 = 1) (hv1 : v.getD 0 0 = 1) (hq : 1 < q.getD 0 0)
    (kdt : KDtype) (m : ℕ → ℕ) (m' : ℕ) :
    refBatchOk 1 k v q ∧ ∃ y, refLayout 1 nlatOut nlonOut v q kdt m = .ok y ∧ y.shape.getD 0 0 = q.getD 0 0 ∧
      (declaredAttention nlatOut nlonOut k v kdt m').shape.getD 0 0 = 1 ∧ ¬ AsDeclared y (declaredAttention nlatOut nlonOut k v kdt m') := by
  refine ⟨⟨Or.inr (by omega), Or.inr (by omega)⟩, ?_⟩
  obtain ⟨y, h1, h2, -, -⟩ := C99_reference 1 (v.getD 3 0) nlatOut nlonOut one_pos v q (one_mul _).symm kdt m
  refine ⟨y, h1, by rw [h2]; rfl, hk, fun h => ?_⟩
  have := h.1
  rw [h2] at this
  simp only [declaredAttention, Lay.alloc, List.cons.injEq] at this
  omega

/-- C99: the optimized attention operators return what they declare, on both devices; the CPU kernels unfold the heads into contiguous memory. -/
theorem C99_attention (nh nlatOut nlonOut : ℕ) (k v : List ℕ) (d : KDtype) (m : ℕ → ℕ) (m' : ℕ) (y : Lay)
    (hy : cpuLayout nh nlatOut nlonOut k v d m = .ok y ∨ gpuLayout nh nlatOut nlonOut k v d d m = .ok y) :
    AsDeclared y (declaredAttention nlatOut nlonOut k v d m') := by
  rcases hy with hy | hy
  · unfold cpuLayout at hy
    split at hy
    · cases hy
    · next hc =>
      push Not at hc
      obtain ⟨hn, hmod⟩ := hc
      have hdiv : v.getD 3 0 / nh * nh = v.getD 3 0 := Nat.div_mul_cancel (Nat.dvd_of_mod_eq_zero hmod)
      dsimp only at hy
      by_cases h1 : nh = 1
      · rw [if_pos h1] at hy
        change Except.ok _ = _ at hy
        injection hy with hy
        subst hy
        obtain ⟨a1, a2, a3⟩ := contiguous_contig (.alloc [k.getD 0 0 * nh, nlatOut, nlonOut, v.getD 3 0 / nh] .f32 (m 0)) (m 3)
        obtain ⟨b1, b2⟩ := to_shape (Lay.contiguous (.alloc [k.getD 0 0 * nh, nlatOut, nlonOut, v.getD 3 0 / nh] .f32 (m 0)) (m 3)) d (m 4)
        refine contig_declared (to_contig a1 d (m 4)) ?_ b2 m'
        rw [b1, a2]
        simp [Lay.alloc, h1]
      · rw [if_neg h1, Nat.mul_div_cancel _ (Nat.pos_of_ne_zero hn)] at hy
        obtain ⟨z, z1, z2, z3⟩ := reshape_shape (x := .alloc [k.getD 0 0 * nh, nlatOut, nlonOut, v.getD 3 0 / nh] .f32 (m 0))
          (s := [k.getD 0 0, nh, nlatOut, nlonOut, v.getD 3 0 / nh]) (by simp only [Lay.alloc, List.prod_cons, List.prod_nil]; ring) (m 1)
        obtain ⟨u, u1, u2, u3⟩ := reshape_shape (x := z.permute [0, 2, 3, 1, 4]) (s := [k.getD 0 0, nlatOut, nlonOut, nh * (v.getD 3 0 / nh)])
          (by simp [Lay.permute, z2]) (m 2)
        rw [z1] at hy
        change (do let y ← (z.permute [0, 2, 3, 1, 4]).reshape [k.getD 0 0, nlatOut, nlonOut, nh * (v.getD 3 0 / nh)] (m 2); pure ((y.contiguous (m 3)).to d (m 4))) = _ at hy
        rw [u1] at hy
        change Except.ok _ = _ at hy
        injection hy with hy
        subst hy
        obtain ⟨a1, a2, a3⟩ := contiguous_contig u (m 3)
        obtain ⟨b1, b2⟩ := to_shape (u.contiguous (m 3)) d (m 4)
        refine contig_declared (to_contig a1 d (m 4)) ?_ b2 m'
        rw [b1, a2, u2, Nat.mul_comm nh, hdiv]
  · unfold gpuLayout at hy
    split at hy
    · cases hy
    · next hc =>
      push Not at hc
      injection hy with hy
      subst hy
      obtain ⟨b1, b2⟩ := to_shape (.alloc [k.getD 0 0, nlatOut, nlonOut, v.getD 3 0 / nh * nh] d (m 0)) d (m 1)
      refine contig_declared (to_contig (alloc_contig _ _ _) d (m 1)) ?_ b2 m'
      rw [b1, Nat.div_mul_cancel (Nat.dvd_of_mod_eq_zero hc.2)]
      rfl

/-- C99: the DISCO kernels, and the contractions built on them, return contiguous tensors of the declared type, on both devices, forwards and backwards and in all types. -/
theorem C99_disco (gpu bwd : Bool) (shape : List ℕ) (dt vdt : KDtype) (m : ℕ → ℕ) (m' : ℕ) :
    AsDeclared (discoRawLayout gpu bwd shape dt vdt m) (.alloc shape dt m') ∧ AsDeclared (discoLayout gpu bwd shape dt m) (.alloc shape dt m') := by
  have raw : ∀ vdt, (discoRawLayout gpu bwd shape dt vdt m).Contig ∧ (discoRawLayout gpu bwd shape dt vdt m).shape = shape ∧ (discoRawLayout gpu bwd shape dt vdt m).dt = dt := by
    intro vdt
    unfold discoRawLayout
    split
    · split
      · exact ⟨to_contig (alloc_contig _ _ _) _ _, to_shape _ _ _⟩
      · exact ⟨alloc_contig _ _ _, rfl, rfl⟩
    · exact ⟨to_contig (alloc_contig _ _ _) _ _, to_shape _ _ _⟩
  obtain ⟨r1, r2, r3⟩ := raw vdt
  obtain ⟨s1, s2, s3⟩ := raw (computeDtype dt)
  obtain ⟨b1, b2⟩ := to_shape (discoRawLayout gpu bwd shape dt (computeDtype dt) m) dt (m 2)
  exact ⟨contig_declared r1 r2 r3 m', contig_declared (to_contig s1 dt (m 2)) (b1.trans s2) b2 m'⟩

/-- C99: the shapes of the DISCO kernels are the declared ones, whatever they compute. -/
theorem C99_disco_shapes {R : Type} [CommSemiring R] (gpu : Bool) (dev : ℕ → Device R) (d d' : KDtype) (A : Csr R) (x : Ten R) (g : Ten4 R) (K H W : ℕ) :
    (∀ z, csrForward gpu dev d d' A x K H W = .ok z → z.d0 = x.d0 ∧ z.d1 = K ∧ z.d2 = H ∧ z.d3 = W) ∧
    ∀ z, csrBackward gpu dev d d' A g H W = .ok z → z.d0 = g.d0 ∧ z.d1 = H ∧ z.d2 = W := by
  constructor
  · intro z hz
    unfold csrForward at hz
    split at hz
    · cases hz
    · split at hz
      · cases hz
      · split at hz
        · cases hz
        · cases hz; exact ⟨rfl, rfl, rfl, rfl⟩
  · intro z hz
    unfold csrBackward at hz
    split at hz
    · cases hz
    · split at hz
      · cases hz
      · split at hz
        · cases hz
        · cases hz; exact ⟨rfl, rfl, rfl⟩

/-- C99: the fused DISCO operator returns what it declares, however the einsum orders its result. -/
theorem C99_fused (B groups groupsize K H W : ℕ) (w : List ℕ) (dt : KDtype) (order m : ℕ → ℕ) (m' : ℕ) :
    ∃ y, fusedLayout B groups groupsize K H W w dt order m = .ok y ∧ AsDeclared y (declaredFused B groups H W w dt m') := by
  unfold fusedLayout
  obtain ⟨e, e1, e2, e3⟩ := reshape_shape (x := .alloc [B, groups * groupsize, K, H, W] dt (m 0)) (s := [B, groups, groupsize, K, H, W])
    (by simp only [Lay.alloc, List.prod_cons, List.prod_nil]; ring) (m 1)
  rw [e1]
  change ∃ y, (Lay.contiguous ⟨[B, groups, w.getD 1 0, H, W], e.dt, m 2, order⟩ (m 3)).reshape [B, groups * w.getD 1 0, H, W] (m 4) = _ ∧ _
  obtain ⟨a1, a2, a3⟩ := contiguous_contig ⟨[B, groups, w.getD 1 0, H, W], e.dt, m 2, order⟩ (m 3)
  obtain ⟨y, y1, y2, y3, y4⟩ := reshape_contig a1 (s := [B, groups * w.getD 1 0, H, W]) (by rw [a2]; simp only [List.prod_cons, List.prod_nil]; ring) (m 4)
  exact ⟨y, y1, contig_declared y4 y2 (by rw [y3, a3, e3]; rfl) m'⟩

/-- C99: `to_nhwc` and `to_nchw` return contiguous memory of their own, whatever the layout of their argument. -/
theorem C99_permuted_copy (x : Lay) (dims : List ℕ) (m : ℕ) (hm : m ≠ x.mem) :
    (permutedCopy x dims m).shape = (dims.map fun a => x.shape.getD a 0) ∧ (permutedCopy x dims m).dt = x.dt ∧ (permutedCopy x dims m).Contig ∧
      (permutedCopy x dims m).mem ≠ x.mem := by
  unfold permutedCopy
  dsimp only
  split
  · exact ⟨rfl, rfl, alloc_contig _ _ _, hm⟩
  · next h =>
    unfold Lay.contiguous
    rw [if_neg h]
    exact ⟨rfl, rfl, alloc_contig _ _ _, hm⟩

/-- C99, why the copy is needed: `permute(...).contiguous()` of a contiguous tensor is the argument's own memory exactly when there is no item, at most one channel or at most one point. -/
theorem C99_permute_alias (B C H W : ℕ) (dt : KDtype) (m m' : ℕ) (hm : m' ≠ m) :
    (((Lay.alloc [B, C, H, W] dt m).permute [0, 2, 3, 1]).contiguous m').mem = m ↔ B = 0 ∨ C ≤ 1 ∨ H * W ≤ 1 := by
  have hoff : ∀ b < B, ∀ h < H, ∀ w < W, ∀ c < C,
      ((Lay.alloc [B, C, H, W] dt m).permute [0, 2, 3, 1]).off (flat [B, H, W, C] [b, h, w, c]) = flat [B, C, H, W] [b, c, h, w] :=
    fun b hb h hh w hw c hc => lay_permute_off (.alloc [B, C, H, W] dt m) [0, 2, 3, 1] [b, h, w, c] (inside4 hb hh hw hc)
  have key : ((Lay.alloc [B, C, H, W] dt m).permute [0, 2, 3, 1]).Contig ↔ B = 0 ∨ C ≤ 1 ∨ H * W ≤ 1 := by
    constructor
    · rintro ⟨o, ho⟩
      by_contra hcon
      push Not at hcon
      obtain ⟨c1, c2, c3⟩ := hcon
      have hB : 0 < B := by omega
      have hH : 0 < H := Nat.pos_of_ne_zero fun h => by rw [h] at c3; simp at c3
      have hW : 0 < W := Nat.pos_of_ne_zero fun h => by rw [h] at c3; simp at c3
      have p0 := ho (flat [B, H, W, C] [0, 0, 0, 0]) (flat_lt (s := [B, H, W, C]) (inside4 hB hH hW (show 0 < C by omega)))
      have p1 := ho (flat [B, H, W, C] [0, 0, 0, 1]) (flat_lt (s := [B, H, W, C]) (inside4 hB hH hW (show 1 < C by omega)))
      rw [hoff 0 hB 0 hH 0 hW 0 (by omega)] at p0
      rw [hoff 0 hB 0 hH 0 hW 1 (by omega)] at p1
      rw [flat4, flat4] at p0 p1
      simp at p0 p1
      rw [← p0] at p1
      omega
    · intro hd
      refine ⟨0, fun n hn => ?_⟩
      obtain ⟨f1, f2⟩ := flat_unflat (s := [B, H, W, C]) hn
      obtain ⟨b, h, w, c, e, hb, hh, hw, hc⟩ := four f2
      rw [e] at f1
      rw [← f1, hoff b hb h hh w hw c hc, flat4, flat4, Nat.zero_add]
      rcases hd with hd | hd | hd
      · omega
      · obtain rfl : C = 1 := by omega
        obtain rfl : c = 0 := by omega
        ring
      · have hp : H * W = 1 := by have := Nat.mul_pos (show 0 < H by omega) (show 0 < W by omega); omega
        obtain ⟨rfl, rfl⟩ := mul_eq_one.1 hp
        obtain rfl : h = 0 := by omega
        obtain rfl : w = 0 := by omega
        ring
  rw [← key]
  unfold Lay.contiguous
  split
  · next h => exact ⟨fun _ => h, fun _ => rfl⟩
  · next h => exact ⟨fun e => absurd e hm, fun e => absurd e h⟩

/-! ### Examples -/

/-- Two items, two heads of three channels, a 4 x 8 grid, half precision: the result is not as declared, and the place of channel 1 of the first point holds longitude 1 of channel 0. -/
example (m : ℕ → ℕ) (value : List ℕ → ℝ) :
    ∃ y, refLayout 2 4 8 [2, 4, 8, 6] [2, 4, 8, 6] .f16 m = .ok y ∧ ¬ AsDeclared y (declaredAttention 4 8 [2, 4, 8, 6] [2, 4, 8, 6] .f16 0) ∧
      ∀ memory : ℕ → ℝ, (∀ i, Inside i y.shape → memory (y.off (flat y.shape i)) = value i) → memory 1 = value [0, 0, 1, 0] := by
  obtain ⟨y, h1, h2, -, -⟩ := C99_reference 2 3 4 8 (by norm_num) [2, 4, 8, 6] [2, 4, 8, 6] rfl .f16 m
  refine ⟨y, h1, fun h => ?_, fun memory hmem => ?_⟩
  · have := (C99_reference_strides 2 3 4 8 (by norm_num) [2, 4, 8, 6] [2, 4, 8, 6] [2, 4, 8, 6] rfl rfl .f16 m 0 y h1).1 h
    simp at this
  · exact C99_reference_misread 2 3 4 8 (by norm_num) [2, 4, 8, 6] [2, 4, 8, 6] rfl .f16 m y h1 value memory hmem 0 (by simp) 0 (by norm_num) 0 (by norm_num) 1 (by norm_num)

/-- Keys of one item for three items of queries. -/
example (m : ℕ → ℕ) := C99_reference_batch 4 8 [1, 4, 8, 6] [1, 4, 8, 6] [3, 4, 8, 6] rfl rfl (by simp) .f32 m 0

/-- The optimized operators do return: on the CPU for one head, and on the GPU for two. -/
example (m : ℕ → ℕ) : ∃ y, cpuLayout 1 4 8 [2, 4, 8, 6] [2, 4, 8, 6] .f16 m = .ok y := ⟨_, by unfold cpuLayout; rw [if_neg (by simp), if_pos rfl]; rfl⟩
example (m : ℕ → ℕ) : ∃ y, gpuLayout 2 4 8 [2, 4, 8, 6] [2, 4, 8, 6] .f16 .f16 m = .ok y := ⟨_, by unfold gpuLayout; rw [if_neg (by simp)]⟩

end Verif.Props
