import Verif.Lemmas.AttentionTypes
import Verif.Props.AttentionLayer
import Verif.Props.AttentionCudaBwd
/-!
Property C97: number types of neighbourhood attention. `layerType` (Spec/AttentionTypes.lean) is the table of the accepted types.
-/
namespace Verif.Props
open Verif Verif.Spec Verif.Spec.Attn Verif.Attn Verif.AttnGpu Verif.AttnTypes Verif.Spec.AttnTypes Verif.Quad Verif.Filter Verif.Disco Finset

/-- What the run of a forward operator has to be: complete, and accepted by the device. -/
def ExecOk (e : Exec) (B nh Ck Cv nlatIn nlonIn nlatOut nlonOut : ℕ) : Prop :=
  match e with
  | .reference => True
  | .cpu r => CoversBlocks ⟨B * nh, Ck, Cv, nlatIn, nlonIn, nlatOut, nlonOut⟩ r.order
  | .gpu r => RunOk r nlatOut ∧ GpuFits B nh Ck Cv nlatIn nlonIn nlatOut nlonOut

/-- What the run of a backward operator has to be. -/
def BwdExecOk (e : BwdExec) (B nh Ck Cv nlatIn nlonIn nlatOut nlonOut : ℕ) : Prop :=
  match e with
  | .reference => True
  | .cpu r => CpuRun.Complete r ⟨B * nh, Ck, Cv, nlatIn, nlonIn, nlatOut, nlonOut⟩
  | .gpu r => RunOk r.toGpuRun nlatOut ∧ GpuBwdFits B nh Ck Cv nlatIn nlonIn nlatOut nlonOut

section
variable {B nh Ck Cv nlatIn nlonIn nlatOut nlonOut : ℕ} {P : Pattern} {k v q : Arr}

theorem exec_run_ok (F : OpFits B nh Ck Cv nlatIn nlonIn nlatOut nlonOut P k v q) (w : ℕ → ℝ) (e : Exec)
    (he : ExecOk e B nh Ck Cv nlatIn nlonIn nlatOut nlonOut) :
    ∃ y, e.run w P nh nlonIn nlatOut nlonOut k v q = .ok y ∧ y.shape = [B, nlatOut, nlonOut, nh * Cv] ∧
      ∀ b < B, ∀ n < nh, ∀ c < Cv, ∀ ho < nlatOut, ∀ wo < nlonOut, y.at [b, ho, wo, n * Cv + c]
        = attention Ck w (opNbrs P nlatIn nlonIn nlonOut) (packedHead Ck n k) (packedHead Cv n v) (packedHead Ck n q) b c ho wo := by
  cases e with
  | reference => exact C44_operator_reference F w
  | cpu r => exact C44_operator_cpu F w r he
  | gpu r =>
    obtain ⟨y, h1, h2, h3, -⟩ := C68_operator_gpu F w r he.1 he.2
    exact ⟨y, h1, h2, h3⟩

theorem exec_weights_ok {e : Exec} {b : WBuf} (h : e ≠ .reference → b.dt = .f32) : e.weights b = .ok b.value := by
  cases e with
  | reference => rfl
  | cpu r => unfold Exec.weights; dsimp only; rw [if_pos (h (by simp))]
  | gpu r =>
    have hd := h (by simp)
    unfold Exec.weights
    dsimp only
    congr 1
    funext i
    unfold WBuf.value WBuf.asFloat
    rw [hd]

theorem bwd_weights_ok {e : BwdExec} {b : WBuf} (h : e ≠ .reference → b.dt = .f32) : e.weights b = .ok b.value := by
  cases e with
  | reference => rfl
  | cpu r => unfold BwdExec.weights; dsimp only; rw [if_pos (h (by simp))]
  | gpu r =>
    have hd := h (by simp)
    unfold BwdExec.weights
    dsimp only
    congr 1
    funext i
    unfold WBuf.value WBuf.asFloat
    rw [hd]

theorem typesOk_of {e : Exec} {a b c : KDtype} (h : e ≠ .reference → a = c ∧ b = c) : e.typesOk a b c = true := by
  cases e with
  | reference => rfl
  | cpu r => obtain ⟨h1, h2⟩ := h (by simp); simp [Exec.typesOk, h1, h2]
  | gpu r => obtain ⟨h1, h2⟩ := h (by simp); simp [Exec.typesOk, h1, h2]

theorem outDt_of {e : Exec} {a c : KDtype} (h : e ≠ .reference → a = c) : e.outDt a c = a := by
  cases e with
  | reference => rfl
  | cpu r => exact (h (by simp)).symm
  | gpu r => exact (h (by simp)).symm

/-- C97, the operators: with weights in single precision and keys, values and queries of one type (the reference operator: any types), every
operator returns neighbourhood attention with the stored weights, in the type of its inputs, or in the autocast type whatever the types
of its inputs are. -/
theorem C97_operator (F : OpFits B nh Ck Cv nlatIn nlonIn nlatOut nlonOut P k v q) (e : Exec)
    (he : ExecOk e B nh Ck Cv nlatIn nlonIn nlatOut nlonOut) (ac : Option KDtype) (b : WBuf) (hb : e ≠ .reference → b.dt = .f32)
    (dk dv dq : KDtype) (ht : e ≠ .reference → ac = none → dk = dq ∧ dv = dq) :
    ∃ y, attnOpT e ac b P nh nlonIn nlatOut nlonOut ⟨dk, k⟩ ⟨dv, v⟩ ⟨dq, q⟩ = .ok ⟨ac.getD dk, y⟩ ∧ y.shape = [B, nlatOut, nlonOut, nh * Cv] ∧
      ∀ i < B, ∀ n < nh, ∀ c < Cv, ∀ ho < nlatOut, ∀ wo < nlonOut, y.at [i, ho, wo, n * Cv + c]
        = attention Ck b.value (opNbrs P nlatIn nlonIn nlonOut) (packedHead Ck n k) (packedHead Cv n v) (packedHead Ck n q) i c ho wo := by
  obtain ⟨y, y1, y2, y3⟩ := exec_run_ok F b.value e he
  have hT : e ≠ .reference → ac.getD dk = ac.getD dq ∧ ac.getD dv = ac.getD dq := fun h => by
    cases ac with
    | none => exact ht h rfl
    | some a => exact ⟨rfl, rfl⟩
  refine ⟨y, ?_, y2, y3⟩
  unfold attnOpT castT
  dsimp only
  rw [if_pos (typesOk_of hT), exec_weights_ok hb]
  change (do let y ← e.run b.value P nh nlonIn nlatOut nlonOut k v q; pure (TArr.mk (e.outDt (ac.getD dk) (ac.getD dq)) y)) = _
  rw [y1, outDt_of fun h => (hT h).1]
  rfl

/-- C97, refused operator calls: without autocast the optimized operators refuse keys or values of another type than the queries, and the CPU
operator refuses weights of another type than single precision. -/
theorem C97_operator_refused (e : Exec) (b : WBuf) (P : Pattern) (nh nlonIn nlatOut nlonOut : ℕ) (k v q : TArr) :
    (e ≠ .reference → (k.dt ≠ q.dt ∨ v.dt ≠ q.dt) → attnOpT e none b P nh nlonIn nlatOut nlonOut k v q = .error .runtimeError) ∧
    (∀ r ac, e = .cpu r → b.dt ≠ .f32 → attnOpT e ac b P nh nlonIn nlatOut nlonOut k v q = .error .runtimeError) := by
  constructor
  · intro h ht
    unfold attnOpT castT
    dsimp only
    rw [if_neg]
    have : ¬ (k.dt = q.dt ∧ v.dt = q.dt) := fun h => ht.elim (fun g => g h.1) fun g => g h.2
    cases e with
    | reference => exact absurd rfl h
    | cpu r => simpa [Exec.typesOk] using this
    | gpu r => simpa [Exec.typesOk] using this
  · rintro r ac rfl hb
    unfold attnOpT
    dsimp only
    split
    · unfold Exec.weights
      dsimp only
      rw [if_neg hb]
      rfl
    · rfl

/-- C97, gradients: for the backward pass of such a call, every operator returns gradients in the types of keys, values and queries as they
were passed in (under autocast, before the cast), and they are the derivative of the forward operator. The gradient `dy` arrives in the type of the result. -/
theorem C97_gradient (F : OpFits B nh Ck Cv nlatIn nlonIn nlatOut nlonOut P k v q) (e : Exec) (g : BwdExec)
    (hsame : match e with | .reference => g = .reference | .cpu r => g = .cpu r | .gpu _ => ∃ r, g = .gpu r)
    (he : ExecOk e B nh Ck Cv nlatIn nlonIn nlatOut nlonOut) (hg : BwdExecOk g B nh Ck Cv nlatIn nlonIn nlatOut nlonOut)
    (ac : Option KDtype) (b : WBuf) (hb : e ≠ .reference → b.dt = .f32) (hw : ∀ hi < nlatIn, 0 < b.value hi)
    (hne : ∀ ho < nlatOut, ∀ wo < nlonOut, opNbrs P nlatIn nlonIn nlonOut ho wo ≠ [])
    (dk dv dq : KDtype) (ht : e ≠ .reference → ac = none → dk = dq ∧ dv = dq) (dy : Arr) (hdy : dy.shape = [B, nlatOut, nlonOut, nh * Cv]) :
    ∃ gk gv gq, attnOpBwdT g ac b P nh nlonIn nlatOut nlonOut ⟨dk, k⟩ ⟨dv, v⟩ ⟨dq, q⟩ ⟨ac.getD dk, dy⟩
        = .ok ((ac.getD dk, ac.getD dv, ac.getD dq), ⟨dk, gk⟩, ⟨dv, gv⟩, ⟨dq, gq⟩) ∧
      gk.shape = k.shape ∧ gv.shape = v.shape ∧ gq.shape = q.shape ∧
      ∀ δk δv δq : Arr, δk.shape = k.shape → δv.shape = v.shape → δq.shape = q.shape →
        ∃ y : ℝ → Arr, (∀ t, attnOpT e ac b P nh nlonIn nlatOut nlonOut ⟨dk, lineArr k δk t⟩ ⟨dv, lineArr v δv t⟩ ⟨dq, lineArr q δq t⟩
            = .ok ⟨ac.getD dk, y t⟩) ∧
          HasDerivAt (fun t => packedInner B nlatOut nlonOut (nh * Cv) dy (y t))
            (packedInner B nlatIn nlonIn (nh * Ck) gk δk + packedInner B nlatIn nlonIn (nh * Cv) gv δv
              + packedInner B nlatOut nlonOut (nh * Ck) gq δq) 0 := by
  have hT : e ≠ .reference → ac.getD dk = ac.getD dq ∧ ac.getD dv = ac.getD dq := fun h => by
    cases ac with
    | none => exact ht h rfl
    | some a => exact ⟨rfl, rfl⟩
  have hgT : g.typesOk (ac.getD dk) (ac.getD dv) (ac.getD dq) (ac.getD dk) = true := by
    cases e with
    | reference => subst hsame; rfl
    | cpu r => obtain ⟨h1, h2⟩ := hT (by simp); subst hsame; simp [BwdExec.typesOk, h1, h2]
    | gpu r => obtain ⟨h1, h2⟩ := hT (by simp); obtain ⟨r', rfl⟩ := hsame; simp [BwdExec.typesOk, h1, h2]
  have hgD : g.outDts (ac.getD dk) (ac.getD dv) (ac.getD dq) = (ac.getD dk, ac.getD dv, ac.getD dq) := by
    cases e with
    | reference => subst hsame; rfl
    | cpu r => obtain ⟨h1, h2⟩ := hT (by simp); subst hsame; simp [BwdExec.outDts, h1, h2]
    | gpu r => obtain ⟨r', rfl⟩ := hsame; rfl
  have hgb : g ≠ .reference → b.dt = .f32 := fun h => hb fun h' => h (by subst h'; exact hsame)
  have fwd : ∀ (k v q y : Arr), e.run b.value P nh nlonIn nlatOut nlonOut k v q = .ok y →
      attnOpT e ac b P nh nlonIn nlatOut nlonOut ⟨dk, k⟩ ⟨dv, v⟩ ⟨dq, q⟩ = .ok ⟨ac.getD dk, y⟩ := by
    intro k v q y hy
    unfold attnOpT castT
    dsimp only
    rw [if_pos (typesOk_of hT), exec_weights_ok hb]
    change (do let y ← e.run b.value P nh nlonIn nlatOut nlonOut k v q; pure (TArr.mk (e.outDt (ac.getD dk) (ac.getD dq)) y)) = _
    rw [hy, outDt_of fun h => (hT h).1]
    rfl
  have bwd : ∀ gk gv gq : Arr, g.run b.value P nh nlonIn nlatOut nlonOut k v q dy = .ok (gk, gv, gq) →
      attnOpBwdT g ac b P nh nlonIn nlatOut nlonOut ⟨dk, k⟩ ⟨dv, v⟩ ⟨dq, q⟩ ⟨ac.getD dk, dy⟩
        = .ok ((ac.getD dk, ac.getD dv, ac.getD dq), ⟨dk, gk⟩, ⟨dv, gv⟩, ⟨dq, gq⟩) := by
    intro gk gv gq h
    unfold attnOpBwdT castT
    dsimp only
    rw [if_pos hgT, bwd_weights_ok hgb, hgD]
    change (do let g ← g.run b.value P nh nlonIn nlatOut nlonOut k v q dy
               pure ((ac.getD dk, ac.getD dv, ac.getD dq), TArr.mk dk g.1, TArr.mk dv g.2.1, TArr.mk dq g.2.2)) = _
    rw [h]
    rfl
  have key : ∃ gk gv gq, g.run b.value P nh nlonIn nlatOut nlonOut k v q dy = .ok (gk, gv, gq) ∧
      gk.shape = k.shape ∧ gv.shape = v.shape ∧ gq.shape = q.shape ∧
      ∀ δk δv δq : Arr, δk.shape = k.shape → δv.shape = v.shape → δq.shape = q.shape →
        ∃ y : ℝ → Arr, (∀ t, e.run b.value P nh nlonIn nlatOut nlonOut (lineArr k δk t) (lineArr v δv t) (lineArr q δq t) = .ok (y t)) ∧
          HasDerivAt (fun t => packedInner B nlatOut nlonOut (nh * Cv) dy (y t))
            (packedInner B nlatIn nlonIn (nh * Ck) gk δk + packedInner B nlatIn nlonIn (nh * Cv) gv δv
              + packedInner B nlatOut nlonOut (nh * Ck) gq δq) 0 := by
    cases e with
    | reference => subst hsame; exact C44_gradient_reference F b.value hw hne dy hdy
    | cpu r => subst hsame; exact C44_gradient_cpu F b.value hw hne dy hdy r hg
    | gpu r => obtain ⟨r', rfl⟩ := hsame; exact C69_gradient_gpu F b.value hw hne dy hdy r he.1 r' hg.1 he.2 hg.2
  obtain ⟨gk, gv, gq, h1, h2, h3, h4, h5⟩ := key
  refine ⟨gk, gv, gq, bwd gk gv gq h1, h2, h3, h4, fun δk δv δq sk sv sq => ?_⟩
  obtain ⟨y, y1, y2⟩ := h5 δk δv δq sk sv sq
  exact ⟨y, fun t => fwd _ _ _ _ (y1 t), y2⟩

end

/-! ### The layer -/

/-- The projections, normalisations and the scaling of a layer, on the values only. -/
theorem layer_steps {gauss : ℕ → Rule} {tol : ℝ} {maxiter : ℕ} {A : LayerArgs} {theta : Option ℝ} {p : Params} {M : TypedNbhd} {rin rout : Rule}
    (hL : Nbhd.init gauss tol maxiter A theta p = .ok M.layer) (hin : precomputeLatitudes gauss tol maxiter A.nlatIn A.gridIn = .ok rin)
    (hout : precomputeLatitudes gauss tol maxiter A.nlatOut A.gridOut = .ok rout) {B : ℕ} {query key value : TArr}
    (hI : LayerInputs A B query.arr key.arr value.arr) (e : Exec)
    (he : ExecOk e B A.numHeads (A.kC / A.numHeads) (A.oC / A.numHeads) A.nlatIn A.nlonIn A.nlatOut A.nlonOut) (ac : Option KDtype) (nf : Bool) :
    ∃ k v q, OpFits B A.numHeads (A.kC / A.numHeads) (A.oC / A.numHeads) A.nlatIn A.nlonIn A.nlatOut A.nlonOut M.layer.pattern k v q ∧
      (M.body e ac nf query key value = (do
        let tq ← einsumDt ac query.dt M.paramDt
        let tk ← einsumDt ac key.dt M.paramDt
        let tv ← einsumDt ac value.dt M.paramDt
        let out ← attnOpT e ac M.quad M.layer.pattern A.numHeads A.nlonIn A.nlatOut A.nlonOut
          ⟨if p.nk.isSome && ac.isSome && nf && tk ≠ .f64 then .f32 else tk, k⟩ ⟨tv, v⟩
          (scaleT M.scaleDt (nbhdScale A) ⟨if p.nq.isSome && ac.isSome && nf && tq ≠ .f64 then .f32 else tq, q⟩)
        let out ← linearT ac M.paramDt A.oC A.oC p.wp p.bp out
        toNchwT out)) ∧
      ∀ w : ℕ → ℝ, ∃ cutoff o y, nbhdCutoff A theta = .ok cutoff ∧
        e.run w M.layer.pattern A.numHeads A.nlonIn A.nlatOut A.nlonOut k v (q.scale (nbhdScale A)) = .ok o ∧
        (∃ o', linear A.oC A.oC p.wp p.bp o = .ok o' ∧ toNchw o' = .ok y) ∧ y.shape = [B, A.oC, A.nlatOut, A.nlonOut] ∧
        ∀ b < B, ∀ o < A.oC, ∀ ho < A.nlatOut, ∀ wo < A.nlonOut, y.at [b, o, ho, wo]
          = layer p A.inChannels (A.kC / A.numHeads) (A.oC / A.numHeads) A.oC (layerScale A.scale (A.kC / A.numHeads)) w
            (diskPoints rin.x rout.x A.nlatIn A.nlonIn A.nlonOut ((1 + 1 / 10 ^ 3) * cutoff))
            key.arr.fn4 value.arr.fn4 query.arr.fn4 b o ho wo := by
  obtain ⟨i1, i2, i3, i4, i5, i6, i7, cutoff, i8, i9, i10, i11⟩ := nbhd_init hL hin hout
  obtain ⟨hn, hkC, hoC⟩ := headChecks_ok i4
  obtain ⟨q1, q2, eq1, eq2, sq2, vq2⟩ := project_ok A.kC p.wq p.bq hI.hq
  obtain ⟨k1, k2, ek1, ek2, sk2, vk2⟩ := project_ok A.kC p.wk p.bk hI.hk
  obtain ⟨v1, v2, ev1, ev2, sv2, vv2⟩ := project_ok A.oC p.wv p.bv hI.hv
  rw [hkC] at sq2 sk2
  rw [hoC] at sv2
  obtain ⟨q3, eq3, sq3, vq3⟩ := nbhdNorm_ok p.eps p.nq sq2 hI.posB hI.poslatOut i2 hn
  obtain ⟨k3, ek3, sk3, vk3⟩ := nbhdNorm_ok p.eps p.nk sk2 hI.posB hI.poslatIn i1 hn
  have F : ∀ {x : Arr}, x.shape = [B, A.nlatOut, A.nlonOut, A.numHeads * (A.kC / A.numHeads)] →
      OpFits B A.numHeads (A.kC / A.numHeads) (A.oC / A.numHeads) A.nlatIn A.nlonIn A.nlatOut A.nlonOut M.layer.pattern k3 v2 x :=
    fun hx => ⟨sk3, sv2, hx, hI.posB, hn, hI.poslatIn, i1, hI.poslatOut, i2, i3, by
      split
      · next h => exact fits_of_rows (i10 h)
      · next h => exact fits_of_rows (i11 h)⟩
  have hset : ∀ ho < A.nlatOut, ∀ wo < A.nlonOut, (opNbrs M.layer.pattern A.nlatIn A.nlonIn A.nlonOut ho wo).Nodup ∧
      ∀ pt, pt ∈ opNbrs M.layer.pattern A.nlatIn A.nlonIn A.nlonOut ho wo ↔
        pt ∈ diskPoints rin.x rout.x A.nlatIn A.nlonIn A.nlonOut ((1 + 1 / 10 ^ 3) * cutoff) ho wo := by
    intro ho hho wo hwo
    unfold opNbrs
    split
    · next h => exact gather_disk M.layer.pattern rin.x rout.x A.nlatIn A.nlonIn A.nlonOut _ i1 i2 (Nat.dvd_of_mod_eq_zero h) ho wo (i10 h ho hho)
    · next h =>
      exact scatter_disk M.layer.pattern rin.x rout.x A.nlatIn A.nlonIn A.nlatOut A.nlonOut _ i1 i2
        (Nat.dvd_of_mod_eq_zero (i3.resolve_left h)) ho wo hho hwo (i11 h)
  have hsc : nbhdScale A = layerScale A.scale (A.kC / A.numHeads) := by unfold nbhdScale layerScale; cases A.scale <;> rfl
  refine ⟨k3, v2, q3, F sq3, ?_, fun w => ?_⟩
  · unfold TypedNbhd.body
    dsimp only
    rw [i5, i6]
    simp only [toNhwcT, linearT, normT, eq1, ek1, ev1, eq2, ek2, ev2, bind, Except.bind, pure, Except.pure]
    cases einsumDt ac query.dt M.paramDt with
    | error _ => rfl
    | ok tq =>
      dsimp only
      cases einsumDt ac key.dt M.paramDt with
      | error _ => rfl
      | ok tk =>
        dsimp only
        cases einsumDt ac value.dt M.paramDt with
        | error _ => rfl
        | ok tv =>
          dsimp only
          rw [eq3, ek3]
  · obtain ⟨o1, eo1, so1, vo1'⟩ := exec_run_ok (F (x := q3.scale (nbhdScale A)) sq3) w e he
    have vo1 : ∀ b < B, ∀ n < A.numHeads, ∀ c < A.oC / A.numHeads, ∀ ho < A.nlatOut, ∀ wo < A.nlonOut,
        o1.at [b, ho, wo, n * (A.oC / A.numHeads) + c] = setAttention (A.kC / A.numHeads) w
          (diskPoints rin.x rout.x A.nlatIn A.nlonIn A.nlonOut ((1 + 1 / 10 ^ 3) * cutoff) ho wo) (packedHead (A.kC / A.numHeads) n k3)
          (packedHead (A.oC / A.numHeads) n v2) (packedHead (A.kC / A.numHeads) n (q3.scale (nbhdScale A))) b c ho wo := by
      intro b hb n hn c hc ho hho wo hwo
      rw [vo1' b hb n hn c hc ho hho wo hwo]
      exact attention_set _ _ _ _ _ _ _ (hset ho hho wo hwo).1 (hset ho hho wo hwo).2
    rw [← hoC] at so1
    obtain ⟨o2, eo2, so2, vo2⟩ := linear_ok A.oC p.wp p.bp so1
    obtain ⟨so3, vo3⟩ := permute_0312 so2
    refine ⟨cutoff, o1, o2.permute [0, 3, 1, 2], i8, eo1, ⟨o2, eo2, by unfold toNchw; rw [so2]; rfl⟩, so3, fun b hb o ho' ho hho wo hwo => ?_⟩
    rw [vo3 b hb o ho' ho hho wo hwo, vo2 b hb ho hho wo hwo o ho']
    unfold layer proj
    congr 1
    refine sum_congr rfl fun j hj => ?_
    congr 1
    have hj' := mem_range.1 hj
    rw [hoC] at hj'
    obtain ⟨e1, e2, e3⟩ := packed_split hj'
    rw [← e3, vo1 b hb _ e1 _ e2 ho hho wo hwo, e3]
    refine setAttention_congr (fun _ _ => rfl) (fun pt hpt e he => ?_) (fun pt hpt => ?_) (fun e he => ?_)
    · obtain ⟨⟨h1, h2⟩, -⟩ := mem_diskPoints.1 hpt
      unfold packedHead
      rw [vk3 b hb _ e1 e he _ h1 _ h2]
      refine headNorm_congr (fun c hc => ?_) e he
      rw [vk2 b hb _ h1 _ h2 _ (lt_of_lt_of_eq (packed_lt e1 hc) hkC.symm)]
      rfl
    · obtain ⟨⟨h1, h2⟩, -⟩ := mem_diskPoints.1 hpt
      unfold packedHead
      rw [vv2 b hb _ h1 _ h2 _ (lt_of_lt_of_eq (packed_lt e1 e2) hoC.symm)]
      rfl
    · unfold packedHead
      rw [scale_at, vq3 b hb _ e1 e he _ hho _ hwo, hsc]
      congr 1
      refine headNorm_congr (fun c hc => ?_) e he
      rw [vq2 b hb _ hho _ hwo _ (lt_of_lt_of_eq (packed_lt e1 hc) hkC.symm)]
      rfl

/-- The checks of the forward pass succeed. -/
theorem forward_body {gauss : ℕ → Rule} {tol : ℝ} {maxiter : ℕ} {A : LayerArgs} {theta : Option ℝ} {p : Params} {M : TypedNbhd} {rin rout : Rule}
    (hL : Nbhd.init gauss tol maxiter A theta p = .ok M.layer) (hin : precomputeLatitudes gauss tol maxiter A.nlatIn A.gridIn = .ok rin)
    (hout : precomputeLatitudes gauss tol maxiter A.nlatOut A.gridOut = .ok rout) {B : ℕ} {query : TArr} {key value : Option TArr}
    (hI : LayerInputs A B query.arr (key.getD query).arr (value.getD query).arr) (hk : (key.getD query).dt = query.dt)
    (hv : (value.getD query).dt = query.dt) (e : Exec) (ac : Option KDtype) (nf : Bool) :
    M.forward e ac nf query key value = M.body e ac nf query (key.getD query) (value.getD query) := by
  obtain ⟨-, -, -, -, i5, -⟩ := nbhd_init hL hin hout
  unfold TypedNbhd.forward
  dsimp only
  rw [i5, hI.hq, hI.hk, hI.hv, hk, hv, if_neg (by simp), if_neg (by simp), if_neg (by simp), if_neg (by simp), if_neg (by simp)]

/-- What the projections do with the types, when the table accepts them. -/
theorem einsum_of_layerType {ac : Option KDtype} {p x t : KDtype} (ha : ac ≠ some .f64) (h : layerType ac p x = some t) :
    einsumDt ac x p = .ok t ∧ einsumDt ac t p = .ok t ∧ ac.getD t = t := by
  cases ac with
  | none =>
    simp only [layerType] at h
    split at h
    · next hx => cases h; subst hx; simp [einsumDt, operandDt]
    · cases h
  | some a =>
    simp only [layerType] at h
    split at h
    · cases h
    · next hx =>
      cases h
      rw [not_or] at hx
      have : t ≠ .f64 := fun h => ha (by rw [h])
      simp [einsumDt, operandDt, hx.1, hx.2, this]

/-- C97, the layer: for the reference, the CPU and the GPU operator, with or without autocast, the layer returns attention with the stored
quadrature weights, in the type that the table gives. The optimized operators need the buffer of weights in single precision, as
the constructor makes it, and without autocast a `scale` that does not widen the queries. -/
theorem C97_layer {gauss : ℕ → Rule} {tol : ℝ} {maxiter : ℕ} {A : LayerArgs} {theta : Option ℝ} {p : Params} {M : TypedNbhd} {rin rout : Rule}
    (hL : Nbhd.init gauss tol maxiter A theta p = .ok M.layer) (hin : precomputeLatitudes gauss tol maxiter A.nlatIn A.gridIn = .ok rin)
    (hout : precomputeLatitudes gauss tol maxiter A.nlatOut A.gridOut = .ok rout) {B : ℕ} {query : TArr} {key value : Option TArr}
    (hI : LayerInputs A B query.arr (key.getD query).arr (value.getD query).arr) (hk : (key.getD query).dt = query.dt)
    (hv : (value.getD query).dt = query.dt) (e : Exec)
    (he : ExecOk e B A.numHeads (A.kC / A.numHeads) (A.oC / A.numHeads) A.nlatIn A.nlonIn A.nlatOut A.nlonOut) (ac : Option KDtype)
    (ha : ac ≠ some .f64) (nf : Bool) (t : KDtype) (ht : layerType ac M.paramDt query.dt = some t) (hb : e ≠ .reference → M.quad.dt = .f32)
    (hs : e ≠ .reference → ac = none → ∀ d, M.scaleDt = some d → promoteDt query.dt d = query.dt) :
    ∃ cutoff y, nbhdCutoff A theta = .ok cutoff ∧ M.forward e ac nf query key value = .ok ⟨t, y⟩ ∧ y.shape = [B, A.oC, A.nlatOut, A.nlonOut] ∧
      ∀ b < B, ∀ o < A.oC, ∀ ho < A.nlatOut, ∀ wo < A.nlonOut, y.at [b, o, ho, wo]
        = layer p A.inChannels (A.kC / A.numHeads) (A.oC / A.numHeads) A.oC (layerScale A.scale (A.kC / A.numHeads)) M.quad.value
          (diskPoints rin.x rout.x A.nlatIn A.nlonIn A.nlonOut ((1 + 1 / 10 ^ 3) * cutoff))
          (key.getD query).arr.fn4 (value.getD query).arr.fn4 query.arr.fn4 b o ho wo := by
  obtain ⟨k3, v3, q3, F, hbody, H⟩ := layer_steps hL hin hout hI e he ac nf
  obtain ⟨cutoff, o, y, hc, ho, ⟨o', ho1, ho2⟩, hy, hval⟩ := H M.quad.value
  obtain ⟨t1, t2, t3⟩ := einsum_of_layerType ha ht
  refine ⟨cutoff, y, hc, ?_, hy, hval⟩
  rw [forward_body hL hin hout hI hk hv, hbody, hk, hv, t1]
  simp only [bind, Except.bind, scaleT]
  set tk : KDtype := if (p.nk.isSome && ac.isSome && nf && decide (t ≠ .f64)) = true then .f32 else t with htk
  set tq : KDtype := if (p.nq.isSome && ac.isSome && nf && decide (t ≠ .f64)) = true then .f32 else t with htq
  set ts : KDtype := scaledDt M.scaleDt tq with hts
  have hx : ac = none → tk = t ∧ tq = t ∧ t = query.dt := by
    rintro rfl
    refine ⟨by simp [htk], by simp [htq], ?_⟩
    simp only [layerType] at ht
    split at ht
    · next h => cases ht; exact h.symm
    · cases ht
  have hT : e ≠ .reference → ac = none → tk = ts ∧ t = ts := by
    intro h1 h2
    obtain ⟨x1, x2, x3⟩ := hx h2
    rw [hts, x1, x2]
    unfold scaledDt
    cases hd : M.scaleDt with
    | none => exact ⟨rfl, rfl⟩
    | some d => dsimp only; rw [x3, hs h1 h2 d hd]; exact ⟨rfl, rfl⟩
  obtain ⟨y', y1, -, -⟩ := C97_operator (q := q3.scale (nbhdScale A)) ⟨F.hk, F.hv, F.hq, F.posB, F.posn, F.poslatIn, F.poslonIn, F.poslatOut, F.poslonOut, F.dir, F.fits⟩
    e he ac M.quad hb tk t ts hT
  have hy' : y' = o := by
    have := y1
    unfold attnOpT castT at this
    dsimp only at this
    rw [if_pos, exec_weights_ok hb] at this
    · change (do let y ← e.run M.quad.value M.layer.pattern A.numHeads A.nlonIn A.nlatOut A.nlonOut k3 v3 (q3.scale (nbhdScale A))
                 pure (TArr.mk (e.outDt (ac.getD tk) (ac.getD ts)) y)) = _ at this
      rw [ho] at this
      have h' : (Except.ok (ε := PyErr) (TArr.mk (e.outDt (ac.getD tk) (ac.getD ts)) o)) = .ok ⟨ac.getD tk, y'⟩ := this
      injection h' with h''
      injection h'' with _ h2
      exact h2.symm
    · refine typesOk_of fun h => ?_
      cases ac with
      | none => exact hT h rfl
      | some a => exact ⟨rfl, rfl⟩
  rw [y1, hy']
  have hfin : ac.getD tk = t := by
    cases ac with
    | none => exact (hx rfl).1
    | some a => exact t3
  dsimp only
  rw [hfin]
  simp only [linearT, toNchwT, t2, ho1, ho2, bind, Except.bind, pure, Except.pure]

/-- Under autocast an operator returns a tensor of the autocast type or refuses the call. -/
theorem op_autocast {B nh Ck Cv nlatIn nlonIn nlatOut nlonOut : ℕ} {P : Pattern} {k v q : TArr}
    (F : OpFits B nh Ck Cv nlatIn nlonIn nlatOut nlonOut P k.arr v.arr q.arr) (e : Exec) (he : ExecOk e B nh Ck Cv nlatIn nlonIn nlatOut nlonOut)
    (a : KDtype) (b : WBuf) :
    attnOpT e (some a) b P nh nlonIn nlatOut nlonOut k v q = .error .runtimeError ∨
      ∃ y, attnOpT e (some a) b P nh nlonIn nlatOut nlonOut k v q = .ok ⟨a, y⟩ ∧ y.shape = [B, nlatOut, nlonOut, nh * Cv] := by
  by_cases hc : ∃ r, e = .cpu r ∧ b.dt ≠ .f32
  · obtain ⟨r, h1, h2⟩ := hc
    exact Or.inl ((C97_operator_refused e b P nh nlonIn nlatOut nlonOut k v q).2 r _ h1 h2)
  · right
    have hw : ∃ w, e.weights b = .ok w := by
      cases e with
      | reference => exact ⟨_, rfl⟩
      | cpu r => exact ⟨_, exec_weights_ok fun _ => not_not.1 fun h => hc ⟨r, rfl, h⟩⟩
      | gpu r => exact ⟨_, rfl⟩
    obtain ⟨w, hw⟩ := hw
    obtain ⟨y, y1, y2, -⟩ := exec_run_ok F w e he
    refine ⟨y, ?_, y2⟩
    unfold attnOpT castT
    dsimp only [Option.getD]
    rw [if_pos (typesOk_of fun _ => ⟨rfl, rfl⟩), hw]
    change (do let y ← e.run w P nh nlonIn nlatOut nlonOut k.arr v.arr q.arr; pure (TArr.mk (e.outDt a a) y)) = _
    rw [y1, outDt_of fun _ => rfl]
    rfl

/-- C97, refused: inputs of different types; types that the table does not accept (in particular every module in double precision under autocast,
and inputs in double precision to any other module); on the CPU a module whose weights are not in single precision; without autocast,
on the optimized operators, a `scale` that widens the queries. All with the same exception, before anything is returned. -/
theorem C97_refused {gauss : ℕ → Rule} {tol : ℝ} {maxiter : ℕ} {A : LayerArgs} {theta : Option ℝ} {p : Params} {M : TypedNbhd} {rin rout : Rule}
    (hL : Nbhd.init gauss tol maxiter A theta p = .ok M.layer) (hin : precomputeLatitudes gauss tol maxiter A.nlatIn A.gridIn = .ok rin)
    (hout : precomputeLatitudes gauss tol maxiter A.nlatOut A.gridOut = .ok rout) {B : ℕ} {query : TArr} {key value : Option TArr}
    (hI : LayerInputs A B query.arr (key.getD query).arr (value.getD query).arr) (e : Exec)
    (he : ExecOk e B A.numHeads (A.kC / A.numHeads) (A.oC / A.numHeads) A.nlatIn A.nlonIn A.nlatOut A.nlonOut) (ac : Option KDtype)
    (ha : ac ≠ some .f64) (nf : Bool)
    (hbad : (key.getD query).dt ≠ query.dt ∨ (value.getD query).dt ≠ query.dt ∨ layerType ac M.paramDt query.dt = none ∨
      (∃ r, e = .cpu r ∧ M.quad.dt ≠ .f32) ∨ (e ≠ .reference ∧ ac = none ∧ ∃ d, M.scaleDt = some d ∧ promoteDt query.dt d ≠ query.dt)) :
    M.forward e ac nf query key value = .error .runtimeError := by
  by_cases hk : (key.getD query).dt = query.dt
  swap
  · unfold TypedNbhd.forward
    dsimp only
    split
    · rfl
    · rw [if_pos (Or.inl hk)]
  by_cases hv : (value.getD query).dt = query.dt
  swap
  · unfold TypedNbhd.forward
    dsimp only
    split
    · rfl
    · rw [if_pos (Or.inr hv)]
  replace hbad := (hbad.resolve_left (not_not.2 hk)).resolve_left (not_not.2 hv)
  obtain ⟨k3, v3, q3, F, hbody, -⟩ := layer_steps hL hin hout hI e he ac nf
  rw [forward_body hL hin hout hI hk hv, hbody, hk, hv]
  simp only [bind, Except.bind]
  cases ht : einsumDt ac query.dt M.paramDt with
  | error x =>
    dsimp only
    congr 1
    unfold einsumDt at ht
    split at ht
    · cases ht
    · injection ht with h; exact h.symm
  | ok t =>
    dsimp only
    cases ac with
    | none =>
      have hx : t = query.dt ∧ query.dt = M.paramDt := by
        by_cases h : query.dt = M.paramDt
        · simp only [einsumDt, operandDt, h, if_true, Except.ok.injEq] at ht; exact ⟨by rw [h, ht], h⟩
        · simp [einsumDt, operandDt, h] at ht
      have h2 : (∃ r, e = .cpu r ∧ M.quad.dt ≠ .f32) ∨ (e ≠ .reference ∧ ∃ d, M.scaleDt = some d ∧ promoteDt query.dt d ≠ query.dt) := by
        rcases hbad with h | h | h
        · simp [layerType, hx.2] at h
        · exact Or.inl h
        · exact Or.inr ⟨h.1, h.2.2⟩
      simp only [Option.isSome_none, Bool.and_false, Bool.false_and, Bool.false_eq_true, if_false, scaleT]
      rcases h2 with ⟨r, h3, h4⟩ | ⟨h3, d, h4, h5⟩
      · rw [(C97_operator_refused e M.quad M.layer.pattern A.numHeads A.nlonIn A.nlatOut A.nlonOut _ _ _).2 r none h3 h4]
      · rw [(C97_operator_refused e M.quad M.layer.pattern A.numHeads A.nlonIn A.nlatOut A.nlonOut _ _ _).1 h3]
        dsimp only [scaledDt]
        rw [h4, hx.1]
        exact Or.inl (Ne.symm h5)
    | some a =>
      have hne : a ≠ .f64 := fun h => ha (by rw [h])
      obtain hr | ⟨y, y1, y2⟩ := op_autocast (k := ⟨if p.nk.isSome && (some a).isSome && nf && t ≠ .f64 then .f32 else t, k3⟩) (v := ⟨t, v3⟩)
        (q := scaleT M.scaleDt (nbhdScale A) ⟨if p.nq.isSome && (some a).isSome && nf && t ≠ .f64 then .f32 else t, q3⟩)
        (show OpFits _ _ _ _ _ _ _ _ M.layer.pattern k3 v3 (q3.scale (nbhdScale A)) from
          ⟨F.hk, F.hv, F.hq, F.posB, F.posn, F.poslatIn, F.poslonIn, F.poslatOut, F.poslonOut, F.dir, F.fits⟩) e he a M.quad
      · rw [hr]
      · have hd : M.paramDt = .f64 := by
          rcases hbad with h | h | h
          · simp only [layerType] at h
            split at h
            · next h' =>
              rcases h' with h' | h'
              · by_contra hp
                unfold einsumDt operandDt at ht
                rw [h'] at ht
                simp only [if_true, if_neg hp, Ne.symm hne, if_false] at ht
                cases ht
              · exact h'
            · cases h
          · exfalso
            obtain ⟨r, h1, h2⟩ := h
            rw [(C97_operator_refused e M.quad M.layer.pattern A.numHeads A.nlonIn A.nlatOut A.nlonOut _ _ _).2 r (some a) h1 h2] at y1
            cases y1
          · cases h.2.1
        rw [y1]
        dsimp only
        simp only [linearT, einsumDt, operandDt, hd, if_neg hne, if_true, bind, Except.bind]

/-! ### Modules that have been cast -/

section
variable {B nh Ck Cv nlatIn nlonIn nlatOut nlonOut : ℕ} {P : Pattern} {k v q : Arr}

/-- On the GPU the weights in use are the single-precision numbers found in the memory of the buffer. -/
theorem gpu_reads (F : OpFits B nh Ck Cv nlatIn nlonIn nlatOut nlonOut P k v q) (r : GpuRun) (hr : RunOk r nlatOut)
    (hl : GpuFits B nh Ck Cv nlatIn nlonIn nlatOut nlonOut) (d : KDtype) (b : WBuf) :
    ∃ y, attnOpT (.gpu r) none b P nh nlonIn nlatOut nlonOut ⟨d, k⟩ ⟨d, v⟩ ⟨d, q⟩ = .ok ⟨d, y⟩ ∧ y.shape = [B, nlatOut, nlonOut, nh * Cv] ∧
      ∀ i < B, ∀ n < nh, ∀ c < Cv, ∀ ho < nlatOut, ∀ wo < nlonOut, y.at [i, ho, wo, n * Cv + c]
        = attention Ck b.asFloat (opNbrs P nlatIn nlonIn nlonOut) (packedHead Ck n k) (packedHead Cv n v) (packedHead Ck n q) i c ho wo := by
  obtain ⟨y, y1, y2, y3, -⟩ := C68_operator_gpu F b.asFloat r hr hl
  refine ⟨y, ?_, y2, y3⟩
  unfold attnOpT castT
  dsimp only [Option.getD]
  rw [if_pos (typesOk_of fun _ => ⟨rfl, rfl⟩)]
  change (do let y ← gpuOp r b.asFloat P nh nlonIn nlatOut nlonOut k v q; pure (TArr.mk d y)) = _
  rw [y1]
  rfl

/-- C97 is false of a module cast to `bfloat16` on the GPU: the weight it uses for input row `i` is, up to one percent, the stored weight of row
`2 i + 1`. (`128 ≤ word < 32768`: a positive normal number.) -/
theorem C97_bfloat16_wrong_rows (b : WBuf) (hb : b.dt = .bf16) (i : ℕ) (h0 : b.word (2 * i) < 65536) (h1 : 128 ≤ b.word (2 * i + 1))
    (h2 : b.word (2 * i + 1) < 32768) :
    0 < b.value (2 * i + 1) ∧ b.value (2 * i + 1) ≤ b.asFloat i ∧ b.asFloat i ≤ (1 + 1 / 2 ^ 7) * b.value (2 * i + 1) := by
  unfold WBuf.value WBuf.asFloat
  rw [hb]
  exact f32Val_upper h0 h1 h2

/-- C97 is false of a module cast to half precision on the GPU: as soon as an output point has neighbours in two rows of the lower half of the input grid, the
result depends on memory behind the buffer of weights: there are inputs and two contents of that memory with different results. -/
theorem C97_half_reads_beyond (hB : 0 < B) (hn : 0 < nh) (hCv : 0 < Cv) (hlat : 0 < nlatIn) (hlon : 0 < nlonIn) (hlon' : 0 < nlonOut)
    (hdir : nlonIn % nlonOut = 0 ∨ nlonOut % nlonIn = 0)
    (hfit : if nlonIn % nlonOut = 0 then P.Fits nlatOut (nlatIn * nlonIn) else P.Fits nlatIn (nlatOut * nlonOut))
    (r : GpuRun) (hr : RunOk r nlatOut) (hl : GpuFits B nh Ck Cv nlatIn nlonIn nlatOut nlonOut) (d : KDtype)
    (stored : ℕ → ℕ) (hst : ∀ i < nlatIn, stored i < 32768) {ho wo : ℕ} (hho : ho < nlatOut) (hwo : wo < nlonOut) {p p' : ℕ × ℕ}
    (hp : p ∈ opNbrs P nlatIn nlonIn nlonOut ho wo) (hp' : p' ∈ opNbrs P nlatIn nlonIn nlonOut ho wo)
    (h1 : nlatIn ≤ 2 * p.1) (h2 : nlatIn ≤ 2 * p'.1) (hne : p.1 ≠ p'.1) :
    ∃ (k v q : Arr) (m m' : ℕ → ℕ), OpFits B nh Ck Cv nlatIn nlonIn nlatOut nlonOut P k v q ∧
      (∀ i < nlatIn, m i = stored i ∧ m' i = stored i) ∧
      ∃ y y', attnOpT (.gpu r) none ⟨d, m⟩ P nh nlonIn nlatOut nlonOut ⟨d, k⟩ ⟨d, v⟩ ⟨d, q⟩ = .ok ⟨d, y⟩ ∧
        attnOpT (.gpu r) none ⟨d, m'⟩ P nh nlonIn nlatOut nlonOut ⟨d, k⟩ ⟨d, v⟩ ⟨d, q⟩ = .ok ⟨d, y'⟩ ∧
        0 < y.at [0, ho, wo, 0] ∧ y.at [0, ho, wo, 0] < y'.at [0, ho, wo, 0] := by
  -- values: one in row `p.1`, zero elsewhere; the memory gives row `p.1` the weight one or two
  let k : Arr := Arr.of4 B nlatIn nlonIn (nh * Ck) fun _ _ _ _ => 0
  let v : Arr := Arr.of4 B nlatIn nlonIn (nh * Cv) fun _ h _ _ => if h = p.1 then 1 else 0
  let q : Arr := Arr.of4 B nlatOut nlonOut (nh * Ck) fun _ _ _ _ => 0
  let m : ℕ → ℕ := fun i => if i < nlatIn then stored i else if i % 2 = 1 then 16256 else 0
  let m' : ℕ → ℕ := fun i => if i < nlatIn then stored i else if i = 2 * p.1 + 1 then 16384 else if i % 2 = 1 then 16256 else 0
  have F : OpFits B nh Ck Cv nlatIn nlonIn nlatOut nlonOut P k v q := ⟨rfl, rfl, rfl, hB, hn, hlat, hlon, by omega, hlon', hdir, hfit⟩
  obtain ⟨y, e1, -, e3⟩ := gpu_reads F r hr hl d ⟨d, m⟩
  obtain ⟨y', e1', -, e3'⟩ := gpu_reads F r hr hl d ⟨d, m'⟩
  have hw : ∀ u : ℕ, nlatIn ≤ 2 * u → (⟨d, m⟩ : WBuf).asFloat u = 1 := by
    intro u hu
    have a1 : m (2 * u) = 0 := by simp only [m]; rw [if_neg (by omega), if_neg (by omega)]
    have a2 : m (2 * u + 1) = 16256 := by simp only [m]; rw [if_neg (by omega), if_pos (by omega)]
    unfold WBuf.asFloat
    dsimp only
    rw [a1, a2]
    exact f32Val_one
  have hw' : (⟨d, m'⟩ : WBuf).asFloat p.1 = 2 := by
    have a1 : m' (2 * p.1) = 0 := by simp only [m']; rw [if_neg (by omega), if_neg (by omega), if_neg (by omega)]
    have a2 : m' (2 * p.1 + 1) = 16384 := by show (if _ then _ else if _ then _ else if _ then _ else _) = _; rw [if_neg (by omega), if_pos rfl]
    unfold WBuf.asFloat
    dsimp only
    rw [a1, a2]
    exact f32Val_two
  have hoff : ∀ u : ℕ, u ≠ p.1 → (⟨d, m'⟩ : WBuf).asFloat u = (⟨d, m⟩ : WBuf).asFloat u := by
    intro u hu
    have a1 : m' (2 * u) = m (2 * u) := by simp only [m, m']; rw [if_neg (show ¬ 2 * u = 2 * p.1 + 1 by omega)]
    have a2 : m' (2 * u + 1) = m (2 * u + 1) := by simp only [m, m']; rw [if_neg (show ¬ 2 * u + 1 = 2 * p.1 + 1 by omega)]
    unfold WBuf.asFloat
    dsimp only
    rw [a1, a2]
  have nn : ∀ u, 0 ≤ (⟨d, m⟩ : WBuf).asFloat u := fun u => by
    have hm : ∀ i, m i < 32768 := fun i => by
      simp only [m]
      split
      · exact hst i ‹_›
      · split <;> omega
    refine f32Val_nonneg ?_
    have := hm (2 * u)
    have := hm (2 * u + 1)
    dsimp only
    omega
  have hin := opNbrs_inside F hho wo
  have sc : ∀ pt ∈ opNbrs P nlatIn nlonIn nlonOut ho wo, score Ck (packedHead Ck 0 k) (packedHead Ck 0 q) 0 ho wo pt = 0 := by
    intro pt hpt
    unfold score
    refine sum_eq_zero fun c hc => ?_
    have : packedHead Ck 0 q 0 c ho wo = 0 := by
      unfold packedHead
      rw [of4_at _ hB hho hwo (by rw [zero_mul, zero_add]; exact lt_of_lt_of_le (mem_range.1 hc) (Nat.le_mul_of_pos_left _ hn))]
    rw [this, zero_mul]
  have va : ∀ pt ∈ opNbrs P nlatIn nlonIn nlonOut ho wo, packedHead Cv 0 v 0 0 pt.1 pt.2 = if pt.1 = p.1 then 1 else 0 := by
    intro pt hpt
    unfold packedHead
    rw [of4_at _ hB (hin pt hpt).1 (hin pt hpt).2 (by rw [zero_mul, zero_add]; exact Nat.mul_pos hn hCv)]
  -- number of neighbours in row `p.1`, and the weight of the others
  set L := opNbrs P nlatIn nlonIn nlonOut ho wo with hLdef
  set N : ℝ := (L.map fun pt => if pt.1 = p.1 then (1 : ℝ) else 0).sum with hN
  set R : ℝ := (L.map fun pt => if pt.1 = p.1 then (0 : ℝ) else (⟨d, m⟩ : WBuf).asFloat pt.1).sum with hR
  have one_le : ∀ (f : ℕ × ℕ → ℝ) (u : ℕ × ℕ), u ∈ L → (∀ pt, 0 ≤ f pt) → f u = 1 → 1 ≤ (L.map f).sum := by
    intro f u hu hf h
    have := List.single_le_sum (l := L.map f) (fun x hx => by obtain ⟨pt, -, rfl⟩ := List.mem_map.1 hx; exact hf pt) (f u) (List.mem_map_of_mem hu)
    rwa [h] at this
  have hN1 : 1 ≤ N := one_le _ p hp (fun pt => by split <;> norm_num) (if_pos rfl)
  have hR1 : 1 ≤ R := one_le _ p' hp' (fun pt => by split; exacts [le_rfl, nn _]) (by rw [if_neg hne.symm]; exact hw _ h2)
  have val : ∀ (b : WBuf) (c : ℝ), b.asFloat p.1 = c → (∀ u, u ≠ p.1 → b.asFloat u = (⟨d, m⟩ : WBuf).asFloat u) →
      attention Ck b.asFloat (opNbrs P nlatIn nlonIn nlonOut) (packedHead Ck 0 k) (packedHead Cv 0 v) (packedHead Ck 0 q) 0 0 ho wo
        = c * N / (c * N + R) := by
    intro b c hc hb
    unfold attention softAvg
    rw [← hLdef]
    congr 1
    · rw [hN, ← List.sum_map_mul_left]
      congr 1
      refine List.map_congr_left fun pt hpt => ?_
      dsimp only
      rw [sc pt hpt, va pt hpt, Real.exp_zero, mul_one]
      split
      · next h => rw [h, hc]
      · rw [mul_zero, mul_zero]
    · rw [hN, hR, ← List.sum_map_mul_left, ← List.sum_map_add]
      congr 1
      refine List.map_congr_left fun pt hpt => ?_
      dsimp only
      rw [sc pt hpt, Real.exp_zero, mul_one]
      split
      · next h => rw [h, hc, mul_one, add_zero]
      · next h => rw [hb _ h, mul_zero, zero_add]
  have v1 := e3 0 hB 0 hn 0 hCv ho hho wo hwo
  have v2 := e3' 0 hB 0 hn 0 hCv ho hho wo hwo
  rw [zero_mul, zero_add, val _ 1 (hw _ h1) (fun _ _ => rfl)] at v1
  rw [zero_mul, zero_add, val _ 2 hw' hoff] at v2
  refine ⟨k, v, q, m, m', F, fun i hi => ⟨if_pos hi, if_pos hi⟩, y, y', e1, e1', ?_, ?_⟩
  · rw [v1]; positivity
  · rw [v1, v2, div_lt_div_iff₀ (by positivity) (by positivity)]
    nlinarith

/-- C97 is false of a module cast to double precision on the GPU: the stored weights of the lower half of the input rows are never used. Two modules
whose weights agree in the other half return the same tensor. -/
theorem C97_double_ignores_half (F : OpFits B nh Ck Cv nlatIn nlonIn nlatOut nlonOut P k v q) (r : GpuRun) (hr : RunOk r nlatOut)
    (hl : GpuFits B nh Ck Cv nlatIn nlonIn nlatOut nlonOut) (d : KDtype) (m m' : ℕ → ℕ) (hm : ∀ i < 4 * ((nlatIn + 1) / 2), m i = m' i) :
    (∀ i, 2 * i < nlatIn → (⟨.f64, m⟩ : WBuf).value i = (⟨.f64, m'⟩ : WBuf).value i) ∧
    ∃ y y', attnOpT (.gpu r) none ⟨.f64, m⟩ P nh nlonIn nlatOut nlonOut ⟨d, k⟩ ⟨d, v⟩ ⟨d, q⟩ = .ok ⟨d, y⟩ ∧
      attnOpT (.gpu r) none ⟨.f64, m'⟩ P nh nlonIn nlatOut nlonOut ⟨d, k⟩ ⟨d, v⟩ ⟨d, q⟩ = .ok ⟨d, y'⟩ ∧ SameTensor y y' := by
  refine ⟨fun i hi => ?_, ?_⟩
  · unfold WBuf.value
    dsimp only
    rw [hm (4 * i) (by omega), hm (4 * i + 1) (by omega), hm (4 * i + 2) (by omega), hm (4 * i + 3) (by omega)]
  obtain ⟨y, e1, e2, e3⟩ := gpu_reads F r hr hl d ⟨.f64, m⟩
  obtain ⟨y', e1', e2', e3'⟩ := gpu_reads F r hr hl d ⟨.f64, m'⟩
  refine ⟨y, y', e1, e1', by rw [e2, e2'], fun i hi => ?_⟩
  rw [e2] at hi
  obtain ⟨b, h, wo, j, rfl, hb, hh, hw, hj⟩ := inside4_iff hi
  obtain ⟨j1, j2, j3⟩ := packed_split hj
  rw [← j3, e3 b hb _ j1 _ j2 h hh wo hw, e3' b hb _ j1 _ j2 h hh wo hw]
  have ha : ∀ pt ∈ opNbrs P nlatIn nlonIn nlonOut h wo, (⟨.f64, m⟩ : WBuf).asFloat pt.1 = (⟨.f64, m'⟩ : WBuf).asFloat pt.1 := by
    intro pt hpt
    have := (opNbrs_inside F hh wo pt hpt).1
    unfold WBuf.asFloat
    dsimp only
    rw [hm (2 * pt.1) (by omega), hm (2 * pt.1 + 1) (by omega)]
  unfold attention softAvg
  congr 2
  · exact List.map_congr_left fun pt hpt => by dsimp only; rw [ha pt hpt]
  · exact List.map_congr_left fun pt hpt => by dsimp only; rw [ha pt hpt]

end

/-! ### The distributed layer -/

/-- C97, the distributed layer: with inputs of one type that the table accepts, and a `scale` that does not widen the queries unless there is
autocast, keys, values and queries reach the ring in one type, which is the type the kernels read, and the result has the type of the table. -/
theorem C97_distributed (ac : Option KDtype) (ha : ac ≠ some .f64) (nf qn kn : Bool) (p x t : KDtype) (s : Option KDtype)
    (ht : layerType ac p x = some t) (hs : ac = none → ∀ d, s = some d → promoteDt x d = x) :
    distTypes ac nf qn kn p s x x x = .ok ⟨t, t, t, t, t⟩ := by
  obtain ⟨t1, t2, t3⟩ := einsum_of_layerType ha ht
  unfold distTypes
  rw [t1]
  simp only [bind, Except.bind, castToAutocast, pure, Except.pure]
  cases ac with
  | none =>
    have hx : t = x := by
      simp only [layerType] at ht
      split at ht
      · next h => cases ht; exact h.symm
      · cases ht
    have hq : scaledDt s t = t := by
      unfold scaledDt
      cases s with
      | none => rfl
      | some d => rw [hx]; exact hs rfl d rfl
    simp only [Option.isSome_none, Bool.and_false, Bool.false_and, Bool.false_eq_true, if_false, Option.getD_none, t2, hq]
  | some a =>
    simp only [Option.getD_some] at t3 ⊢
    subst t3
    rw [t2]

/-- C97 is false of the distributed layer with a `scale` that widens the queries, without autocast: where the serial layer refuses the call
(`C97_refused`), the ring steps run and read keys and values of the narrower type as numbers of the wider type. -/
theorem C97_distributed_misread (nf qn kn : Bool) (p d : KDtype) (hd : promoteDt p d ≠ p) :
    ∃ t, distTypes none nf qn kn p (some d) p p p = .ok t ∧ t.k = p ∧ t.v = p ∧ t.readAs = promoteDt p d ∧ t.readAs ≠ t.k := by
  refine ⟨⟨p, p, promoteDt p d, promoteDt p d, p⟩, ?_, rfl, rfl, rfl, hd⟩
  unfold distTypes
  simp [bind, Except.bind, castToAutocast, pure, Except.pure, einsumDt, operandDt, scaledDt]

/-- C97: under autocast the distributed layer accepts inputs of different types, which the serial layer refuses. -/
theorem C97_distributed_mixed (a : KDtype) (ha : a ≠ .f64) (nf qn kn : Bool) (p xq xk xv : KDtype) (s : Option KDtype)
    (hp : p ≠ .f64) (h1 : xq ≠ .f64) (h2 : xk ≠ .f64) (h3 : xv ≠ .f64) :
    distTypes (some a) nf qn kn p s xq xk xv = .ok ⟨a, a, a, a, a⟩ := by
  unfold distTypes
  simp [bind, Except.bind, castToAutocast, pure, Except.pure, einsumDt, operandDt, hp, h1, h2, h3, ha]

/-- C97: under autocast the distributed layer raises as soon as a parameter or an input is in double precision; `RuntimeError` of the projections. -/
theorem C97_distributed_double (a : KDtype) (ha : a ≠ .f64) (nf qn kn : Bool) (p xq xk xv : KDtype) (s : Option KDtype)
    (h : p = .f64 ∨ xq = .f64 ∨ xk = .f64 ∨ xv = .f64) :
    distTypes (some a) nf qn kn p s xq xk xv = .error .runtimeError := by
  unfold distTypes
  cases a <;> cases p <;> cases xq <;> cases xk <;> cases xv <;>
    first
    | exact absurd rfl ha
    | simp_all [bind, Except.bind, castToAutocast, einsumDt, operandDt]

/-! ### Examples -/

/-- The constructor succeeds, and its module with parameters and weights in single precision meets the hypotheses of `C97_layer`, with and without autocast,
on the GPU for instance. -/
example (gauss : ℕ → Rule) (tol : ℝ) (maxiter : ℕ) (p : Params) (m : ℕ → ℕ) :
    ∃ M : TypedNbhd, ∃ rin rout, M.paramDt = .f32 ∧ M.quad = ⟨.f32, m⟩ ∧ M.scaleDt = none ∧
      Nbhd.init gauss tol maxiter ⟨4, 2, 5, 8, 3, 4, "equiangular", "equiangular", .absent, none, some 6⟩ (some 4) p = .ok M.layer ∧
      precomputeLatitudes gauss tol maxiter 5 "equiangular" = .ok rin ∧ precomputeLatitudes gauss tol maxiter 3 "equiangular" = .ok rout := by
  obtain ⟨⟨L, hL⟩, -, rin, h1, -, rout, h2⟩ := C43_constructible gauss tol maxiter ⟨4, 2, 5, 8, 3, 4, "equiangular", "equiangular", .absent, none, some 6⟩ p 4
    (by norm_num) (by decide) (by decide) (by decide) (by decide) (Or.inl rfl) rfl rfl rfl (by decide)
  exact ⟨⟨L, .f32, ⟨.f32, m⟩, none⟩, rin, rout, rfl, rfl, rfl, hL, h1, h2⟩
example : ExecOk (.gpu ⟨true, -1000, fun h => 2 - h, fun _ _ _ _ _ => 7, fun _ => 7, List.reverse⟩) 2 2 2 3 5 8 3 4 :=
  ⟨⟨fun L => List.reverse_perm L, by decide⟩, by unfold GpuFits; decide⟩
example : layerType none .f32 .f32 = some .f32 ∧ layerType (some .bf16) .f32 .f32 = some .bf16 ∧ layerType (some .f16) .f32 .bf16 = some .f16 ∧
    layerType none .bf16 .f32 = none ∧ layerType (some .bf16) .f64 .f64 = none ∧ layerType none .f64 .f64 = some .f64 := by decide
/-- A `scale` that widens, and one that does not. -/
example : promoteDt .bf16 .f32 ≠ .bf16 ∧ promoteDt .f32 .bf16 = .f32 := by decide
/-- Sixteen-bit words of positive normal `bfloat16` numbers: 1, 1/2 and 1/4. -/
example : (∀ w ∈ [16256, 16128, 16000], 128 ≤ w ∧ w < 32768) ∧ f32Val (16128 * 65536) = 1 / 2 := by
  constructor
  · decide
  · unfold f32Val; norm_num
/-- Four input rows, an output point with neighbours in rows 2 and 3. -/
example : opNbrs ⟨fun z => if z = 0 then 8 else if z = 1 then 13 else 14, fun h => if h = 0 then 0 else if h = 1 then 2 else 3⟩ 4 4 2 0 1 = [(2, 2), (3, 3)] ∧
    Pattern.Fits ⟨fun z => if z = 0 then 8 else if z = 1 then 13 else 14, fun h => if h = 0 then 0 else if h = 1 then 2 else 3⟩ 2 (4 * 4) ∧
    GpuFits 1 2 3 2 4 4 2 2 := by
  refine ⟨by decide, ?_, by unfold GpuFits; decide⟩
  unfold Pattern.Fits
  decide
/-- Memories that agree in the first half and differ in the second, for five rows. -/
example : (∀ i < 4 * ((5 + 1) / 2), (fun _ => 0 : ℕ → ℕ) i = (fun i => if i < 12 then 0 else 1 : ℕ → ℕ) i) ∧ 12 < 4 * 5 := by decide

end Verif.Props
