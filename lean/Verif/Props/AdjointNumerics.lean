import Verif.Props.AdjointGradient
import Verif.Props.LocalConvergence

/-!
Property C107: gradients computed with the numerical adjoint (sensitivity.py:43-98 with fixed-step solvers in both passes)
converge to the Fréchet gradient with the order of the solvers. The exact solves that C83 assumes are shown to exist.
-/

set_option linter.unusedSectionVars false
set_option linter.unusedSimpArgs false

namespace Torchdyn

open Spec Set
open scoped Topology

/-- Time reversal of a solution. -/
theorem SolvesOn.reverse {S : Type} [NormedAddCommGroup S] [NormedSpace ℝ S] {g : ℝ → S → S} {z : ℝ → S} {a b : ℝ}
    (h : SolvesOn g z a b) : SolvesOn (fun s w => -g (-s) w) (fun s => z (-s)) (-b) (-a) := by
  intro s hs
  have h1 : HasDerivWithinAt (fun s : ℝ => -s) (-1) (Icc (-b) (-a)) s := (hasDerivAt_neg s).hasDerivWithinAt
  have h2 := HasDerivWithinAt.scomp s (h (-s) ⟨by linarith [hs.2], by linarith [hs.1]⟩) h1
    (fun u hu => ⟨by linarith [hu.2], by linarith [hu.1]⟩)
  refine h2.congr_deriv ?_
  simp

section exact

variable {X P : Type} [NormedAddCommGroup X] [NormedSpace ℝ X] [FiniteDimensional ℝ X]
  [NormedAddCommGroup P] [NormedSpace ℝ P] [FiniteDimensional ℝ P]

/-- The adjoint state. -/
abbrev AdjS (X P : Type) [NormedAddCommGroup X] [NormedSpace ℝ X] [NormedAddCommGroup P] [NormedSpace ℝ P] : Type :=
  AdjState X (X →L[ℝ] ℝ) (P →L[ℝ] ℝ) ℝ

theorem adjointDynamics_smooth (f : P → ℝ → X → X) (θ : P) (dg : Option (ℝ → X → (X →L[ℝ] ℝ))) (t : ℝ) (A : AdjS X P) :
    adjointDynamics (smoothAdjoint f θ dg) t A =
      (f θ t A.1, -(A.2.1.comp (fderiv ℝ (fun x' => f θ t x') A.1)) - lossCot dg t A.1,
        -(A.2.1.comp (fderiv ℝ (fun θ' => f θ' t A.1) θ)), -(A.2.1 (deriv (fun s => f θ s A.1) t))) := by
  unfold adjointDynamics
  simp only [smoothAdjoint]
  cases dg <;> simp [lossCot]

section partials

variable {f : P → ℝ → X → X}

theorem partial_x (hf : Differentiable ℝ fun q : P × ℝ × X => f q.1 q.2.1 q.2.2) (θ : P) (t : ℝ) (x : X) :
    fderiv ℝ (fun x' => f θ t x') x = (fderiv ℝ (fun q : P × ℝ × X => f q.1 q.2.1 q.2.2) (θ, t, x)).comp
      ((ContinuousLinearMap.inr ℝ P (ℝ × X)).comp (ContinuousLinearMap.inr ℝ ℝ X)) := by
  have h1 : HasFDerivAt (fun x' : X => ((θ, t, x') : P × ℝ × X))
      ((ContinuousLinearMap.inr ℝ P (ℝ × X)).comp (ContinuousLinearMap.inr ℝ ℝ X)) x := by
    have h := (hasFDerivAt_const (𝕜 := ℝ) θ x).prodMk ((hasFDerivAt_const (𝕜 := ℝ) t x).prodMk (hasFDerivAt_id (𝕜 := ℝ) x))
    refine h.congr_fderiv ?_
    ext v <;> simp
  exact (HasFDerivAt.comp x (f := fun x' : X => ((θ, t, x') : P × ℝ × X)) (hf (θ, t, x)).hasFDerivAt h1).fderiv

theorem partial_p (hf : Differentiable ℝ fun q : P × ℝ × X => f q.1 q.2.1 q.2.2) (θ : P) (t : ℝ) (x : X) :
    fderiv ℝ (fun θ' => f θ' t x) θ = (fderiv ℝ (fun q : P × ℝ × X => f q.1 q.2.1 q.2.2) (θ, t, x)).comp
      (ContinuousLinearMap.inl ℝ P (ℝ × X)) := by
  have h1 : HasFDerivAt (fun θ' : P => ((θ', t, x) : P × ℝ × X)) (ContinuousLinearMap.inl ℝ P (ℝ × X)) θ := by
    have h := (hasFDerivAt_id (𝕜 := ℝ) θ).prodMk (hasFDerivAt_const (𝕜 := ℝ) (t, x) θ)
    refine h.congr_fderiv ?_
    ext v <;> simp
  exact (HasFDerivAt.comp θ (f := fun θ' : P => ((θ', t, x) : P × ℝ × X)) (hf (θ, t, x)).hasFDerivAt h1).fderiv

theorem partial_t (hf : Differentiable ℝ fun q : P × ℝ × X => f q.1 q.2.1 q.2.2) (θ : P) (t : ℝ) (x : X) :
    deriv (fun s => f θ s x) t = fderiv ℝ (fun q : P × ℝ × X => f q.1 q.2.1 q.2.2) (θ, t, x) (0, 1, 0) := by
  have h1 : HasDerivAt (fun s : ℝ => ((θ, s, x) : P × ℝ × X)) ((0, 1, 0) : P × ℝ × X) t :=
    (hasDerivAt_const t θ).prodMk ((hasDerivAt_id t).prodMk (hasDerivAt_const t x))
  exact (HasFDerivAt.comp_hasDerivAt t (f := fun s : ℝ => ((θ, s, x) : P × ℝ × X)) (hf (θ, t, x)).hasFDerivAt h1).deriv

/-- The adjoint equation is as smooth as the derivative of the field. -/
theorem contDiff_adjointDynamics {n : ℕ} (hf : ContDiff ℝ (n + 1 : ℕ) fun q : P × ℝ × X => f q.1 q.2.1 q.2.2) (θ : P)
    {dg : Option (ℝ → X → (X →L[ℝ] ℝ))} (hdg : ContDiff ℝ n fun p : ℝ × X => lossCot dg p.1 p.2) :
    ContDiff ℝ n fun p : ℝ × AdjS X P => adjointDynamics (smoothAdjoint f θ dg) p.1 p.2 := by
  have hd : Differentiable ℝ fun q : P × ℝ × X => f q.1 q.2.1 q.2.2 := hf.differentiable (by simp)
  have hD : ContDiff ℝ n (fderiv ℝ fun q : P × ℝ × X => f q.1 q.2.1 q.2.2) := hf.fderiv_right (by exact_mod_cast le_rfl)
  have hin : ContDiff ℝ n fun p : ℝ × AdjS X P => ((θ, p.1, p.2.1) : P × ℝ × X) := by fun_prop
  have hDp := hD.comp hin
  have hlam : ContDiff ℝ n fun p : ℝ × AdjS X P => p.2.2.1 := by fun_prop
  have h1 : ContDiff ℝ n fun p : ℝ × AdjS X P => f θ p.1 p.2.1 :=
    (hf.of_le (by exact_mod_cast Nat.le_succ n)).comp hin
  have hg : ContDiff ℝ n fun p : ℝ × AdjS X P => lossCot dg p.1 p.2.1 :=
    hdg.comp (by fun_prop : ContDiff ℝ n fun p : ℝ × AdjS X P => ((p.1, p.2.1) : ℝ × X))
  simp only [adjointDynamics_smooth, partial_x hd, partial_p hd, partial_t hd]
  refine h1.prodMk (((hlam.clm_comp (hDp.clm_comp contDiff_const)).neg.sub hg).prodMk
    ((hlam.clm_comp (hDp.clm_comp contDiff_const)).neg.prodMk (hlam.clm_apply (hDp.clm_apply contDiff_const)).neg))

/-- Exact solutions of the adjoint equation along `y`, from any final cotangents. -/
theorem exists_adjoint_solution (hf : ContDiff ℝ 1 fun q : P × ℝ × X => f q.1 q.2.1 q.2.2) (θ : P)
    {dg : Option (ℝ → X → (X →L[ℝ] ℝ))} (hdg : Continuous fun p : ℝ × X => lossCot dg p.1 p.2) {y : ℝ → X} {a b : ℝ}
    (hab : a ≤ b) (hy : SolvesOn (f θ) y a b) (A : AdjS X P) (hA : A.1 = y b) :
    ∃ z : ℝ → AdjS X P, z b = A ∧ SolvesOn (adjointDynamics (smoothAdjoint f θ dg)) z a b ∧ ∀ t, (z t).1 = y t := by
  have hd : Differentiable ℝ fun q : P × ℝ × X => f q.1 q.2.1 q.2.2 := hf.differentiable (by simp)
  have hD : Continuous (fderiv ℝ fun q : P × ℝ × X => f q.1 q.2.1 q.2.2) := hf.continuous_fderiv (by simp)
  have hyc : ContinuousOn y (Icc a b) := fun t ht => (hy t ht).continuousWithinAt
  have hDy : ContinuousOn (fun t => fderiv ℝ (fun q : P × ℝ × X => f q.1 q.2.1 q.2.2) (θ, t, y t)) (Icc a b) :=
    hD.comp_continuousOn (continuousOn_const.prodMk (continuousOn_id.prodMk hyc))
  have hneg : ContinuousOn (fun s : ℝ => -s) (Icc (-b) (-a)) := continuousOn_neg
  have hmaps : MapsTo (fun s : ℝ => -s) (Icc (-b) (-a)) (Icc a b) := fun s hs =>
    ⟨by linarith [hs.2], by linarith [hs.1]⟩
  -- the linear part and the cotangent equation
  let D : ℝ → (P × ℝ × X →L[ℝ] X) := fun t => fderiv ℝ (fun q : P × ℝ × X => f q.1 q.2.1 q.2.2) (θ, t, y t)
  let F : ℝ → (X →L[ℝ] ℝ) × (P →L[ℝ] ℝ) × ℝ → (X →L[ℝ] ℝ) × (P →L[ℝ] ℝ) × ℝ := fun t w =>
    (-(w.1.comp ((D t).comp ((ContinuousLinearMap.inr ℝ P (ℝ × X)).comp (ContinuousLinearMap.inr ℝ ℝ X)))) - lossCot dg t (y t),
      -(w.1.comp ((D t).comp (ContinuousLinearMap.inl ℝ P (ℝ × X)))), -(w.1 (D t (0, 1, 0))))
  have hDc : ContinuousOn D (Icc a b) := hDy
  have hgc : ContinuousOn (fun t => lossCot dg t (y t)) (Icc a b) := hdg.comp_continuousOn (continuousOn_id.prodMk hyc)
  have hx : ContinuousOn (fun t => (D t).comp ((ContinuousLinearMap.inr ℝ P (ℝ × X)).comp (ContinuousLinearMap.inr ℝ ℝ X)))
      (Icc a b) := hDc.clm_comp continuousOn_const
  have hp : ContinuousOn (fun t => (D t).comp (ContinuousLinearMap.inl ℝ P (ℝ × X))) (Icc a b) :=
    hDc.clm_comp continuousOn_const
  have ht : ContinuousOn (fun t => D t (0, 1, 0)) (Icc a b) := hDc.clm_apply continuousOn_const
  obtain ⟨C1, hC1⟩ := isCompact_Icc.exists_bound_of_continuousOn hx
  obtain ⟨C2, hC2⟩ := isCompact_Icc.exists_bound_of_continuousOn hp
  obtain ⟨C3, hC3⟩ := isCompact_Icc.exists_bound_of_continuousOn ht
  have hFc : ∀ w, ContinuousOn (F · w) (Icc a b) := fun w =>
    ((continuousOn_const.clm_comp hx).neg.sub hgc).prodMk ((continuousOn_const.clm_comp hp).neg.prodMk
      (continuousOn_const.clm_apply ht).neg)
  have hFl : ∀ t ∈ Icc a b, ∀ w w', ‖F t w - F t w'‖ ≤ max C1 (max C2 C3) * ‖w - w'‖ := by
    intro t hmem w w'
    have hw : ‖w.1 - w'.1‖ ≤ ‖w - w'‖ := by
      rw [Prod.norm_def]
      exact le_max_left _ _
    have m1 := hC1 t hmem
    have m2 := hC2 t hmem
    have m3 := hC3 t hmem
    have e : F t w - F t w' =
        (-((w.1 - w'.1).comp ((D t).comp ((ContinuousLinearMap.inr ℝ P (ℝ × X)).comp (ContinuousLinearMap.inr ℝ ℝ X)))),
          -((w.1 - w'.1).comp ((D t).comp (ContinuousLinearMap.inl ℝ P (ℝ × X)))), -((w.1 - w'.1) (D t (0, 1, 0)))) := by
      simp only [F, Prod.mk_sub_mk, Prod.mk.injEq]
      refine ⟨?_, ?_, ?_⟩
      · rw [ContinuousLinearMap.sub_comp]
        abel
      · rw [ContinuousLinearMap.sub_comp]
        abel
      · rw [sub_apply]
        ring
    have hn := norm_nonneg (w - w')
    rw [e, Prod.norm_def, Prod.norm_def]
    refine max_le ?_ (max_le ?_ ?_)
    · rw [norm_neg]
      refine (ContinuousLinearMap.opNorm_comp_le _ _).trans ?_
      calc _ ≤ ‖w - w'‖ * C1 := mul_le_mul hw m1 (norm_nonneg _) hn
        _ ≤ _ := by rw [mul_comm]; exact mul_le_mul_of_nonneg_right (le_max_left _ _) hn
    · rw [norm_neg]
      refine (ContinuousLinearMap.opNorm_comp_le _ _).trans ?_
      calc _ ≤ ‖w - w'‖ * C2 := mul_le_mul hw m2 (norm_nonneg _) hn
        _ ≤ _ := by
          rw [mul_comm]
          exact mul_le_mul_of_nonneg_right ((le_max_left _ _).trans (le_max_right _ _)) hn
    · rw [norm_neg]
      refine (ContinuousLinearMap.le_opNorm _ _).trans ?_
      calc _ ≤ ‖w - w'‖ * C3 := mul_le_mul hw m3 (norm_nonneg _) hn
        _ ≤ _ := by
          rw [mul_comm]
          exact mul_le_mul_of_nonneg_right ((le_max_right _ _).trans (le_max_right _ _)) hn
  obtain ⟨v, hv0, hv⟩ := exists_solution_fd (F := fun s w => -F (-s) w) (a := -b) (b := -a) (by linarith)
    (Real.toNNReal (max C1 (max C2 C3)))
    (fun s hs => LipschitzWith.of_dist_le_mul fun w w' => by
      rw [dist_eq_norm, dist_eq_norm, neg_sub_neg, norm_sub_rev]
      exact (hFl (-s) (hmaps hs) w w').trans
        (mul_le_mul_of_nonneg_right (Real.le_coe_toNNReal _) (norm_nonneg _)))
    (fun w => ((hFc w).comp hneg hmaps).neg) A.2
  have hv' : SolvesOn (fun s w => -F (-s) w) v (-b) (-a) := hv
  have hw := hv'.reverse
  simp only [neg_neg] at hw
  refine ⟨fun t => (y t, v (-t)), ?_, fun t hmem => ?_, fun t => rfl⟩
  · exact Prod.ext hA.symm hv0
  · have h := (hy t hmem).prodMk (hw t hmem)
    refine h.congr_deriv ?_
    rw [adjointDynamics_smooth, partial_x hd, partial_p hd, partial_t hd]

/-- The exact solves that C83 asks for exist along every solution. -/
theorem exists_exact_solve (hf : ContDiff ℝ 1 fun q : P × ℝ × X => f q.1 q.2.1 q.2.2) (θ : P)
    {dg : Option (ℝ → X → (X →L[ℝ] ℝ))} (hdg : Continuous fun p : ℝ × X => lossCot dg p.1 p.2) {y : ℝ → X} {a b : ℝ}
    (hy : SolvesOn (f θ) y a b) : ∃ solve, ExactAlong solve (smoothAdjoint f θ dg) y a b := by
  classical
  refine ⟨fun _ A ts => match ts with
    | [tHi, tLo] => if h : ∃ z : ℝ → AdjS X P, z tHi = A ∧ SolvesOn (adjointDynamics (smoothAdjoint f θ dg)) z tLo tHi then
        .ok ([], [A, Classical.choose h tLo]) else .error .runtimeError
    | _ => .error .runtimeError, ?_⟩
  intro A tHi tLo h1 h2 h3 hA
  obtain ⟨z, hz0, hz, -⟩ := exists_adjoint_solution hf θ hdg h2.le (hy.mono h1 h3) A hA
  have h : ∃ z : ℝ → AdjS X P, z tHi = A ∧ SolvesOn (adjointDynamics (smoothAdjoint f θ dg)) z tLo tHi := ⟨z, hz0, hz⟩
  refine ⟨Classical.choose h, [], (Classical.choose_spec h).1, (Classical.choose_spec h).2, ?_⟩
  simp only [dif_pos h]

theorem partial_q (hf : Differentiable ℝ fun q : P × ℝ × X => f q.1 q.2.1 q.2.2) (t : ℝ) (q : P × X) :
    HasFDerivAt (fun q : P × X => f q.1 t q.2) ((fderiv ℝ (fun q : P × ℝ × X => f q.1 q.2.1 q.2.2) (q.1, t, q.2)).comp
      ((ContinuousLinearMap.fst ℝ P X).prod ((0 : P × X →L[ℝ] ℝ).prod (ContinuousLinearMap.snd ℝ P X)))) q := by
  have h1 : HasFDerivAt (fun q : P × X => ((q.1, t, q.2) : P × ℝ × X))
      ((ContinuousLinearMap.fst ℝ P X).prod ((0 : P × X →L[ℝ] ℝ).prod (ContinuousLinearMap.snd ℝ P X))) q :=
    (hasFDerivAt_fst).prodMk ((hasFDerivAt_const (𝕜 := ℝ) t q).prodMk hasFDerivAt_snd)
  exact HasFDerivAt.comp q (f := fun q : P × X => ((q.1, t, q.2) : P × ℝ × X)) (hf (q.1, t, q.2)).hasFDerivAt h1

end partials

/-! ### The numerical backward pass -/

section numeric

variable {A A' : Type}

theorem not_close_neg' {a b : ℝ} (h : ¬ Close a b) : ¬ Close (-a) (-b) := by
  unfold Close at *
  rw [abs_neg, neg_sub_neg, abs_sub_comm]
  exact h

/-- One solve of the backward pass is one step of the time-reversed equation. -/
theorem odeintFixed_back_step {V : Type} [NormedAddCommGroup V] [NormedSpace ℝ V] {g : ℝ → V → V}
    {solver : Solver (Except PyErr) ℝ V A} {args : A} {φ : V → ℝ → ℝ → V}
    (hs : SteppedBy solver (fun s w => -g (-s) w) args φ) (x : V) {tHi tLo : ℝ} (hlt : tLo < tHi)
    (h1 : ¬ Close tHi tLo) (h2 : ¬ Close tLo tHi) :
    odeintFixed (pureField g) x [tHi, tLo] solver [] args =
      .ok ([-tHi, -tLo], [x, φ x (-tHi) (-tLo - -tHi)]) := by
  obtain ⟨sol, hrun, ht⟩ := C12_trajectory hs x (-tHi) (-tLo) [] (by linarith)
    (List.pairwise_pair.2 ⟨not_close_neg' h1, not_close_neg' h2⟩)
  rw [odeintFixed_forward _ _ _ (by linarith)] at hrun
  rw [odeintFixed_backward _ _ _ hlt]
  have e := ht.eq_gridStates (by simp)
  rw [e] at hrun
  exact hrun

/-- The loop of the backward pass on a grid, when only the last output enters the loss: it walks the time-reversed grid. -/
theorem adjointLoop_grid {F : AdjointField ℝ X (X →L[ℝ] ℝ) (P →L[ℝ] ℝ)} {solver : Solver (Except PyErr) ℝ (AdjS X P) A}
    {args : A} {φ : AdjS X P → ℝ → ℝ → AdjS X P}
    (hs : SteppedBy solver (fun s w => -adjointDynamics F (-s) w) args φ) (ts : List ℝ) (hinc : ts.Pairwise (· < ·))
    (hsep : Separated ts) (gt : List ℝ) (gx : List (X →L[ℝ] ℝ)) :
    ∀ (i : ℕ) (S : AdjS X P) (d : ℝ), i < ts.length → (∀ j < i, gt[j]? = some 0 ∧ gx[j]? = some 0) →
      ∃ S' d', adjointLoop (fun g S ts => odeintFixed g S ts solver [] args) F ts gt gx i S d = .ok (S', d') ∧
        (gridStates φ S ((ts.take (i + 1)).reverse.map fun t => -t)).getLast? = some S' := by
  intro i
  induction i with
  | zero =>
    intro S d hi _
    refine ⟨S, d, rfl, ?_⟩
    obtain ⟨t, ts', rfl⟩ : ∃ t ts', ts = t :: ts' := by
      cases ts with
      | nil => simp at hi
      | cons t ts' => exact ⟨t, ts', rfl⟩
    simp [gridStates]
  | succ i ih =>
    intro S d hi hz
    have hi' : i < ts.length := by omega
    have hlt : ts[i] < ts[i + 1] := List.pairwise_iff_getElem.1 hinc i (i + 1) hi' hi (by omega)
    have hse := List.pairwise_iff_getElem.1 hsep i (i + 1) hi' hi (by omega)
    have hstep := odeintFixed_back_step hs S hlt hse.2 hse.1
    obtain ⟨hzt, hzx⟩ := hz i (by omega)
    obtain ⟨S', d', hloop, hlast⟩ := ih (φ S (-ts[i + 1]) (-ts[i] - -ts[i + 1]))
      (F.pair (φ S (-ts[i + 1]) (-ts[i] - -ts[i + 1])).2.1
        (F.vf ts[i + 1] (φ S (-ts[i + 1]) (-ts[i] - -ts[i + 1])).1)) hi' (fun j hj => hz j (by omega))
    refine ⟨S', d', ?_, ?_⟩
    · rw [adjointLoop]
      simp only [bind, Except.bind, pure, Except.pure, getItem, List.getElem?_eq_getElem hi',
        List.getElem?_eq_getElem hi, hzt, hzx]
      have e : odeintFixed (fun t S => Except.ok (adjointDynamics F t S)) S [ts[i + 1], ts[i]] solver [] args =
          .ok ([-ts[i + 1], -ts[i]], [S, φ S (-ts[i + 1]) (-ts[i] - -ts[i + 1])]) := hstep
      rw [e]
      simp only [getLastItem, List.getLast?_cons_cons, List.getLast?_singleton, pure, Except.pure, add_zero, sub_zero]
      exact hloop
    · have e1 : (ts.take (i + 1 + 1)).reverse = ts[i + 1] :: (ts.take (i + 1)).reverse := by
        rw [List.take_add_one, List.getElem?_eq_getElem hi]
        simp
      have e2 : (ts.take (i + 1)).reverse = ts[i] :: (ts.take i).reverse := by
        rw [List.take_add_one, List.getElem?_eq_getElem hi']
        simp
      rw [e2] at hlast
      rw [e1, e2, List.map_cons, List.map_cons, gridStates]
      rw [List.map_cons] at hlast
      generalize gridStates φ (φ S (-ts[i + 1]) (-ts[i] - -ts[i + 1])) (-ts[i] :: List.map (fun t => -t) (List.take i ts).reverse) = l
        at *
      cases l with
      | nil => simp at hlast
      | cons w l => rw [List.getLast?_cons_cons]; exact hlast

/-- Gradients of the terminal loss `ℓ` (and of an integral loss with gradient `dg`) computed by the adjoint method with
fixed-step solvers in both passes have error `O(h ^ p)` with respect to `D`: there are `C` and `δ` such that on every
increasing grid from `t0` to `T` with gaps at most `h ≤ δ`, stepping forward and then backward over the same times, from the
last computed state with the gradient of `ℓ` there, ends with `μ` and `λ` such that
`‖(w, v) ↦ μ w + λ v - D (w, v)‖ ≤ C h ^ p`. On every grid that `odeint` accepts these are the states of the forward pass and
the gradients returned by the backward pass. -/
def GradientOrder (p : ℕ) (solver : Solver (Except PyErr) ℝ X A) (args : A) (solverAdj : Solver (Except PyErr) ℝ (AdjS X P) A')
    (argsAdj : A') (f : P → ℝ → X → X) (θ : P) (dg : Option (ℝ → X → (X →L[ℝ] ℝ))) (ℓ : X → ℝ) (x0 : X) (t0 T : ℝ)
    (D : P × X →L[ℝ] ℝ) : Prop :=
  ∃ C δ, 0 < δ ∧ ∀ (t1 : ℝ) (rest : List ℝ) (h : ℝ), h ≤ δ → (t0 :: t1 :: rest).Pairwise (· < ·) →
    (t0 :: t1 :: rest).getLast? = some T →
    (∀ (k : ℕ) (t t' : ℝ), (t0 :: t1 :: rest)[k]? = some t → (t0 :: t1 :: rest)[k + 1]? = some t' → t' - t ≤ h) →
    ∃ φ ψ sol xT back S', SteppedBy solver (f θ) args φ ∧
      SteppedBy solverAdj (fun s w => -adjointDynamics (smoothAdjoint f θ dg) (-s) w) argsAdj ψ ∧
      IsTrajectory φ x0 (t0 :: t1 :: rest) sol ∧ sol.getLast? = some xT ∧
      IsTrajectory ψ (xT, fderiv ℝ ℓ xT, 0, fderiv ℝ ℓ xT (f θ T xT)) ((t0 :: t1 :: rest).reverse.map fun t => -t) back ∧
      back.getLast? = some S' ∧ ‖S'.2.2.1.coprod S'.2.1 - D‖ ≤ C * h ^ p ∧
      (Separated (t0 :: t1 :: rest) →
        odeintFixed (pureField (f θ)) x0 (t0 :: t1 :: rest) solver [] args = .ok (t0 :: t1 :: rest, sol) ∧
        ∃ d d', adjointBackward (fun g S ts => odeintFixed g S ts solverAdj [] argsAdj) (smoothAdjoint f θ dg)
          (t0 :: t1 :: rest) sol (List.replicate (rest.length + 2) 0) (List.replicate (rest.length + 1) 0 ++ [fderiv ℝ ℓ xT]) =
            .ok (S'.2.2.1, S'.2.1, d, d'))

theorem reverse_grid {ts : List ℝ} {k : ℕ} {s : ℝ} (h : (ts.reverse.map fun t => -t)[k]? = some s) :
    k < ts.length ∧ ts[ts.length - 1 - k]? = some (-s) := by
  have hk := (List.getElem?_eq_some_iff.1 h).1
  simp only [List.length_map, List.length_reverse] at hk
  refine ⟨hk, ?_⟩
  rw [List.getElem?_map, List.getElem?_reverse hk] at h
  rw [List.getElem?_eq_getElem (by omega)] at h ⊢
  simp only [Option.map_some, Option.some.injEq] at h
  rw [← h, neg_neg]

/-- Convergence of the gradients from convergence of the two passes. -/
theorem gradient_of_converges {p : ℕ} (hp : p ≠ 0) {f : P → ℝ → X → X}
    (hf : ContDiff ℝ 1 fun q : P × ℝ × X => f q.1 q.2.1 q.2.2) {θ : P} {x0 : X}
    {dg : Option (ℝ → X → (X →L[ℝ] ℝ))} (hdg : Continuous fun p : ℝ × X => lossCot dg p.1 p.2)
    {G : ℝ → X → ℝ} (hGc : Continuous fun p : ℝ × X => G p.1 p.2) (hG : ∀ t x, HasFDerivAt (G t) (lossCot dg t x) x)
    {ℓ : X → ℝ} (hℓ : ContDiff ℝ 2 ℓ) {t0 T : ℝ} (htT : t0 < T) (Y : P × X → ℝ → X)
    (hY : ∀ᶠ q in 𝓝 (θ, x0), Y q t0 = q.2 ∧ SolvesOn (f q.1) (Y q) t0 T)
    {solver : Solver (Except PyErr) ℝ X A} {args : A} {solverAdj : Solver (Except PyErr) ℝ (AdjS X P) A'} {argsAdj : A'}
    (hF : ConvergesWithOrder p solver args (f θ) (Y (θ, x0)) t0 T)
    (hB : ∀ z, SolvesOn (adjointDynamics (smoothAdjoint f θ dg)) z t0 T →
      ConvergesNear p solverAdj argsAdj (fun s w => -adjointDynamics (smoothAdjoint f θ dg) (-s) w) (fun s => z (-s))
        (-T) (-t0)) :
    ∃ D : P × X →L[ℝ] ℝ, HasFDerivAt (fun q => ℓ (Y q T) + ∫ s in t0..T, G s (Y q s)) D (θ, x0) ∧
      GradientOrder p solver args solverAdj argsAdj f θ dg ℓ x0 t0 T D := by
  have hd : Differentiable ℝ fun q : P × ℝ × X => f q.1 q.2.1 q.2.2 := hf.differentiable (by simp)
  obtain ⟨hy0, hy⟩ := hY.self_of_nhds
  have hfc : Continuous fun p : ℝ × P × X => fderiv ℝ (fun q : P × X => f q.1 p.1 q.2) p.2 := by
    have e : (fun p : ℝ × P × X => fderiv ℝ (fun q : P × X => f q.1 p.1 q.2) p.2) = fun p =>
        (fderiv ℝ (fun q : P × ℝ × X => f q.1 q.2.1 q.2.2) (p.2.1, p.1, p.2.2)).comp
          ((ContinuousLinearMap.fst ℝ P X).prod ((0 : P × X →L[ℝ] ℝ).prod (ContinuousLinearMap.snd ℝ P X))) := by
      funext p
      exact (partial_q hd p.1 p.2).fderiv
    rw [e]
    have h1 : Continuous fun p : ℝ × P × X => fderiv ℝ (fun q : P × ℝ × X => f q.1 q.2.1 q.2.2) (p.2.1, p.1, p.2.2) :=
      (hf.continuous_fderiv (by simp)).comp (by fun_prop : Continuous fun p : ℝ × P × X => ((p.2.1, p.1, p.2.2) : P × ℝ × X))
    exact h1.clm_comp continuous_const
  obtain ⟨solve, hsolve⟩ := exists_exact_solve hf θ hdg hy
  obtain ⟨μ, lam, d, d', hrun, hD⟩ := C83_frechet hfc (fun t q => (partial_q hd t q).differentiableAt) hdg hGc hG Y hY hsolve
    [T] (by simpa using htT) rfl [fun _ => 0, ℓ] (by
      intro l hl
      simp only [List.mem_cons, List.not_mem_nil, or_false] at hl
      rcases hl with rfl | rfl
      · exact differentiable_const 0
      · exact hℓ.differentiable (by simp)) rfl [0, 0] rfl
  generalize hyd : Y (θ, x0) = y at *
  refine ⟨μ.coprod lam, ?_, ?_⟩
  · simpa using hD
  -- the exact adjoint
  obtain ⟨z, tr, hz0, hz, hsol⟩ := hsolve (y T, fderiv ℝ ℓ (y T), 0, fderiv ℝ ℓ (y T) (f θ T (y T))) T t0 le_rfl htT le_rfl rfl
  have hμ : μ = (z t0).2.2.1 ∧ lam = (z t0).2.1 := by
    have e0 : fderiv ℝ (fun _ : X => (0 : ℝ)) (y t0) = 0 := by simp
    simp only [adjointBackward, adjointLoop, getLastItem, getItem, List.map_cons, List.map_nil, List.zipWith_cons_cons,
      List.zipWith_nil_left, List.zipWith_nil_right, List.getLast?_cons_cons, List.getLast?_singleton, List.length_cons,
      List.length_nil, Nat.reduceAdd, Nat.reduceSub, bind, Except.bind, pure, Except.pure, List.getElem?_cons_succ,
      List.getElem?_cons_zero, e0] at hrun
    have e1 : (smoothAdjoint f θ dg).pair (fderiv ℝ ℓ (y T)) ((smoothAdjoint f θ dg).vf T (y T)) =
      fderiv ℝ ℓ (y T) (f θ T (y T)) := rfl
    rw [e1] at hrun
    simp only [pure, Except.pure] at hsol
    rw [hsol] at hrun
    simp only [List.getLast?_cons_cons, List.getLast?_singleton, add_zero] at hrun
    have := Except.ok.inj hrun
    simp only [Prod.mk.injEq] at this
    exact ⟨this.1.symm, this.2.1.symm⟩
  obtain ⟨C1, δ1, hδ1, H1⟩ := hF
  obtain ⟨C2, δ2, hC2, hδ2, H2⟩ := hB z hz
  -- the start of the backward pass depends smoothly on the last state
  have hstart : ∃ K ε : ℝ, 0 ≤ K ∧ 0 < ε ∧ ∀ x, ‖x - y T‖ ≤ ε →
      ‖((x, fderiv ℝ ℓ x, 0, fderiv ℝ ℓ x (f θ T x)) : AdjS X P) - (y T, fderiv ℝ ℓ (y T), 0, fderiv ℝ ℓ (y T) (f θ T (y T)))‖ ≤
        K * ‖x - y T‖ := by
    have hl : ContDiff ℝ 1 (fderiv ℝ ℓ) := hℓ.fderiv_right (by norm_num)
    have hfT : ContDiff ℝ 1 fun x => f θ T x := hf.comp (by fun_prop : ContDiff ℝ 1 fun x : X => ((θ, T, x) : P × ℝ × X))
    have hc : ContDiff ℝ 1 fun x => ((x, fderiv ℝ ℓ x, 0, fderiv ℝ ℓ x (f θ T x)) : AdjS X P) :=
      contDiff_id.prodMk (hl.prodMk (contDiff_const.prodMk (hl.clm_apply hfT)))
    obtain ⟨K, u, hu, hK⟩ := (hc.contDiffAt (x := y T)).exists_lipschitzOnWith
    obtain ⟨ε, hε, hball⟩ := Metric.nhds_basis_closedBall.mem_iff.1 hu
    refine ⟨K, ε, K.coe_nonneg, hε, fun x hx => ?_⟩
    have := hK.dist_le_mul x (hball (by simpa [dist_eq_norm] using hx)) (y T) (mem_of_mem_nhds hu)
    rwa [dist_eq_norm, dist_eq_norm] at this
  obtain ⟨K, ε, hK0, hε, hK⟩ := hstart
  generalize hC : max C1 0 = C1'
  have hC10 : 0 ≤ C1' := hC ▸ le_max_right _ _
  have hC11 : C1 ≤ C1' := hC ▸ le_max_left _ _
  refine ⟨2 * (C2 * (1 + K * C1')), min (min δ1 δ2) (min 1 (min ε δ2 / ((1 + K) * (1 + C1')))),
    lt_min (lt_min hδ1 hδ2) (lt_min one_pos (div_pos (lt_min hε hδ2) (by positivity))), ?_⟩
  intro t1 rest h hh hmono hlast hgap
  have hh1 : h ≤ δ1 := hh.trans ((min_le_left _ _).trans (min_le_left _ _))
  have hh2 : h ≤ δ2 := hh.trans ((min_le_left _ _).trans (min_le_right _ _))
  have hh3 : h ≤ 1 := hh.trans ((min_le_right _ _).trans (min_le_left _ _))
  have hh4 : h ≤ min ε δ2 / ((1 + K) * (1 + C1')) := hh.trans ((min_le_right _ _).trans (min_le_right _ _))
  rw [le_div_iff₀ (by positivity)] at hh4
  have h01 : t0 < t1 := (List.pairwise_cons.1 hmono).1 t1 (by simp)
  have hh0 : 0 ≤ h := (sub_nonneg.2 h01.le).trans (hgap 0 t0 t1 rfl rfl)
  have hhp : h ^ p ≤ h := by
    calc h ^ p ≤ h ^ 1 := pow_le_pow_of_le_one hh0 hh3 (by omega)
      _ = h := pow_one h
  have hhp0 : 0 ≤ h ^ p := by positivity
  generalize hts : t0 :: t1 :: rest = ts at *
  have hlen : ts.length = rest.length + 2 := by rw [← hts]; simp
  have hlastT : ts[rest.length + 1]? = some T := by
    rw [List.getLast?_eq_getElem?, hlen] at hlast
    exact hlast
  have hle : ∀ t ∈ ts, t0 ≤ t ∧ t ≤ T := by
    intro t ht
    obtain ⟨j, hj, rfl⟩ := List.getElem_of_mem ht
    constructor
    · have hm0 : (t0 :: t1 :: rest).Pairwise (· < ·) := by rw [hts]; exact hmono
      have ht' : ts[j] ∈ t0 :: t1 :: rest := by rw [hts]; exact List.getElem_mem hj
      rcases List.mem_cons.1 ht' with he | hm
      · exact he.ge
      · exact ((List.pairwise_cons.1 hm0).1 _ hm).le
    · obtain ⟨hl', hTe⟩ := List.getElem?_eq_some_iff.1 hlastT
      rw [← hTe]
      rcases Nat.lt_or_ge j (rest.length + 1) with hlt | hge
      · exact (List.pairwise_iff_getElem.1 hmono j (rest.length + 1) hj hl' hlt).le
      · have : j = rest.length + 1 := by omega
        subst this
        exact le_rfl
  -- forward pass
  obtain ⟨φ, sol, hφ, htraj, hfwd, hbd⟩ := H1 t1 rest h hh1 (by rw [hts]; exact hmono) (by rw [hts]; exact fun t ht => (hle t ht).2)
    (by rw [hts]; exact hgap)
  rw [hts] at htraj hfwd hbd
  obtain ⟨xT, hxT⟩ : ∃ xT, sol[rest.length + 1]? = some xT := ⟨_, List.getElem?_eq_getElem (by rw [htraj.length_eq]; omega)⟩
  have hxl : sol.getLast? = some xT := by
    rw [List.getLast?_eq_getElem?, htraj.length_eq, hlen]
    exact hxT
  have hxb : ‖xT - y T‖ ≤ C1' * h ^ p := (hbd _ T xT hlastT hxT).trans (mul_le_mul_of_nonneg_right hC11 hhp0)
  have hCh : C1' * h ^ p ≤ C1' * h := mul_le_mul_of_nonneg_left hhp hC10
  have hm1 : min ε δ2 ≤ ε := min_le_left _ _
  have hm2 : min ε δ2 ≤ δ2 := min_le_right _ _
  have hx1 : ‖xT - y T‖ ≤ ε := by
    have : 0 ≤ h * K * (1 + C1') := by positivity
    nlinarith
  have hx2 := hK xT hx1
  have hx3 : K * ‖xT - y T‖ ≤ K * (C1' * h ^ p) := mul_le_mul_of_nonneg_left hxb hK0
  have hx4 : K * ‖xT - y T‖ ≤ δ2 := by
    have h1 : K * (C1' * h ^ p) ≤ K * (C1' * h) := mul_le_mul_of_nonneg_left hCh hK0
    have h2 : 0 ≤ h * (1 + C1' + K) := by positivity
    nlinarith
  -- backward pass
  have hzT : z (- -T) = (y T, fderiv ℝ ℓ (y T), 0, fderiv ℝ ℓ (y T) (f θ T (y T))) := by rw [neg_neg]; exact hz0
  generalize hS0 : ((xT, fderiv ℝ ℓ xT, 0, fderiv ℝ ℓ xT (f θ T xT)) : AdjS X P) = S0 at hx2
  rw [← hzT] at hx2
  have hrl : (ts.reverse.map fun t => -t).length = rest.length + 2 := by simp [hlen]
  obtain ⟨s1, rs, hr⟩ : ∃ s1 rs, (ts.reverse.map fun t => -t) = -T :: s1 :: rs := by
    match hm : ts.reverse.map (fun t => -t), hrl with
    | [], hrl => simp at hrl
    | [_], hrl => simp at hrl
    | s0 :: s1 :: rs, hrl =>
      refine ⟨s1, rs, ?_⟩
      have h0 := (reverse_grid (ts := ts) (k := 0) (s := s0) (by rw [hm]; rfl)).2
      rw [hlen, show rest.length + 2 - 1 - 0 = rest.length + 1 from by omega, hlastT] at h0
      have : T = -s0 := Option.some.inj h0
      rw [this, neg_neg]
  have hrmono : (-T :: s1 :: rs).Pairwise (· < ·) := by
    rw [← hr, List.pairwise_map, List.pairwise_reverse]
    exact hmono.imp fun h => neg_lt_neg h
  have hrle : ∀ s ∈ -T :: s1 :: rs, s ≤ -t0 := by
    rw [← hr]
    intro s hs
    obtain ⟨t, ht, rfl⟩ := List.mem_map.1 hs
    exact neg_le_neg (hle t (List.mem_reverse.1 ht)).1
  have hrgap : ∀ (k : ℕ) (s s' : ℝ), (-T :: s1 :: rs)[k]? = some s → (-T :: s1 :: rs)[k + 1]? = some s' → s' - s ≤ h := by
    intro k s s' hk hk'
    rw [← hr] at hk hk'
    obtain ⟨a1, a2⟩ := reverse_grid hk
    obtain ⟨b1, b2⟩ := reverse_grid hk'
    have := hgap (ts.length - 1 - (k + 1)) (-s') (-s) b2 (by
      rw [show ts.length - 1 - (k + 1) + 1 = ts.length - 1 - k from by omega]; exact a2)
    linarith
  obtain ⟨ψ, sol', hψ, htraj', -, hbd'⟩ := H2 S0 s1 rs h (hx2.trans hx4) hh2 hrmono hrle hrgap
  have htake : ts.take (rest.length + 1 + 1) = ts := by rw [← hlen]; exact List.take_length
  have hlen' : sol'.length = rest.length + 2 := by rw [htraj'.length_eq, ← hr, hrl]
  obtain ⟨S', hS'⟩ : ∃ S', sol'[rest.length + 2 - 1]? = some S' := ⟨_, List.getElem?_eq_getElem (by omega)⟩
  have hSl : sol'.getLast? = some S' := by
    rw [List.getLast?_eq_getElem?, hlen']
    exact hS'
  have hloop : Separated ts → ∃ dd, adjointLoop (fun g S ts => odeintFixed g S ts solverAdj [] argsAdj) (smoothAdjoint f θ dg)
      ts (List.replicate (rest.length + 2) 0) (List.replicate (rest.length + 1) 0 ++ [fderiv ℝ ℓ xT]) (rest.length + 1) S0
      (fderiv ℝ ℓ xT (f θ T xT)) = .ok (S', dd) := by
    intro hsep
    obtain ⟨S'', dd, hloop, hS''⟩ := adjointLoop_grid hψ ts hmono hsep (List.replicate (rest.length + 2) 0)
      (List.replicate (rest.length + 1) 0 ++ [fderiv ℝ ℓ xT]) (rest.length + 1) S0 (fderiv ℝ ℓ xT (f θ T xT)) (by omega) (by
        intro j hj
        refine ⟨by rw [List.getElem?_replicate, if_pos (by omega)], ?_⟩
        rw [List.getElem?_append_left (by simpa using hj), List.getElem?_replicate, if_pos hj])
    rw [htake, hr, ← htraj'.eq_gridStates (by simp), hSl, Option.some_inj] at hS''
    exact ⟨dd, hS'' ▸ hloop⟩
  have ht0r : (-T :: s1 :: rs)[rest.length + 2 - 1]? = some (-t0) := by
    rw [← hr, List.getElem?_map, List.getElem?_reverse (by omega), hlen,
      show rest.length + 2 - 1 - (rest.length + 2 - 1) = 0 from by omega, ← hts]
    rfl
  have hfin : ‖S' - z (- -t0)‖ ≤ C2 * (h ^ p + ‖S0 - z (- -T)‖) := hbd' _ _ _ ht0r hS'
  rw [neg_neg t0] at hfin
  have hfin2 : ‖S' - z t0‖ ≤ C2 * (1 + K * C1') * h ^ p := by
    refine hfin.trans ?_
    calc C2 * (h ^ p + ‖S0 - z (- -T)‖) ≤ C2 * (h ^ p + K * (C1' * h ^ p)) :=
          mul_le_mul_of_nonneg_left (add_le_add le_rfl (hx2.trans hx3)) hC2
      _ = _ := by ring
  have hy0' : y t0 = x0 := hy0
  rw [hy0'] at htraj hfwd
  refine ⟨φ, ψ, sol, xT, sol', S', hφ, hψ, htraj, hxl, by rw [hS0, hr]; exact htraj', hSl, ?_, fun hsep => ⟨hfwd hsep, ?_⟩⟩
  swap
  · obtain ⟨dd, hloop⟩ := hloop hsep
    refine ⟨dd, fderiv ℝ ℓ xT (f θ T xT), ?_⟩
    have hgl : (List.replicate (rest.length + 1) (0 : X →L[ℝ] ℝ) ++ [fderiv ℝ ℓ xT]).getLast? = some (fderiv ℝ ℓ xT) := by simp
    unfold adjointBackward
    simp only [getLastItem, hxl, hgl, hlast, pure_bind, hlen, Nat.add_succ_sub_one]
    change (adjointLoop (fun g S ts => odeintFixed g S ts solverAdj [] argsAdj) (smoothAdjoint f θ dg) ts _ _ (rest.length + 1)
      (xT, fderiv ℝ ℓ xT, 0, fderiv ℝ ℓ xT (f θ T xT)) (fderiv ℝ ℓ xT (f θ T xT)) >>= _) = _
    rw [hS0, hloop]
    rfl
  · rw [hμ.1, hμ.2]
    have e : S'.2.2.1.coprod S'.2.1 - (z t0).2.2.1.coprod (z t0).2.1 =
        (S'.2.2.1 - (z t0).2.2.1).coprod (S'.2.1 - (z t0).2.1) := by
      ext v <;> simp
    have n1 : ‖S'.2.1 - (z t0).2.1‖ ≤ ‖S' - z t0‖ := by
      rw [Prod.norm_def (S' - z t0), Prod.norm_def (S' - z t0).2]
      exact (le_max_left _ _).trans (le_max_right _ _)
    have n2 : ‖S'.2.2.1 - (z t0).2.2.1‖ ≤ ‖S' - z t0‖ := by
      rw [Prod.norm_def (S' - z t0), Prod.norm_def (S' - z t0).2, Prod.norm_def (S' - z t0).2.2]
      exact (le_max_left _ _).trans ((le_max_right _ _).trans (le_max_right _ _))
    rw [e]
    have hn : ‖(S'.2.2.1 - (z t0).2.2.1).coprod (S'.2.1 - (z t0).2.1)‖ ≤ 2 * ‖S' - z t0‖ := by
      refine ContinuousLinearMap.opNorm_le_bound _ (by positivity) fun v => ?_
      rw [ContinuousLinearMap.coprod_apply]
      refine (norm_add_le _ _).trans ?_
      have v1 := (ContinuousLinearMap.le_opNorm (S'.2.2.1 - (z t0).2.2.1) v.1).trans
        (mul_le_mul n2 (norm_fst_le v) (norm_nonneg _) (norm_nonneg _))
      have v2 := (ContinuousLinearMap.le_opNorm (S'.2.1 - (z t0).2.1) v.2).trans
        (mul_le_mul n1 (norm_snd_le v) (norm_nonneg _) (norm_nonneg _))
      linarith
    refine hn.trans ?_
    linarith

/-- **C107.** Terminal and integral losses: with `euler` in both passes the gradient with respect to parameters and initial
state is computed with first order. -/
theorem C107_euler {f : P → ℝ → X → X} (hf : ContDiff ℝ 2 fun q : P × ℝ × X => f q.1 q.2.1 q.2.2) {θ : P} {x0 : X}
    {dg : Option (ℝ → X → (X →L[ℝ] ℝ))} (hdg : ContDiff ℝ 1 fun p : ℝ × X => lossCot dg p.1 p.2)
    {G : ℝ → X → ℝ} (hGc : Continuous fun p : ℝ × X => G p.1 p.2) (hG : ∀ t x, HasFDerivAt (G t) (lossCot dg t x) x)
    {ℓ : X → ℝ} (hℓ : ContDiff ℝ 2 ℓ) {t0 T : ℝ} (htT : t0 < T) (Y : P × X → ℝ → X)
    (hY : ∀ᶠ q in 𝓝 (θ, x0), Y q t0 = q.2 ∧ SolvesOn (f q.1) (Y q) t0 T) (args : A) (argsAdj : A') :
    ∃ D : P × X →L[ℝ] ℝ, HasFDerivAt (fun q => ℓ (Y q T) + ∫ s in t0..T, G s (Y q s)) D (θ, x0) ∧
      GradientOrder 1 (eulerSolver (Except PyErr) ℝ X A) args (eulerSolver (Except PyErr) ℝ (AdjS X P) A') argsAdj f θ dg ℓ x0
        t0 T D := by
  have hf1 : ContDiff ℝ 1 fun q : P × ℝ × X => f q.1 q.2.1 q.2.2 := hf.of_le (by norm_num)
  refine gradient_of_converges one_ne_zero hf1 hdg.continuous hGc hG hℓ htT Y hY ?_ fun z hz => ?_
  · exact (C106_euler (f θ) (hf1.comp (by fun_prop : ContDiff ℝ 1 fun p : ℝ × X => ((θ, p.1, p.2) : P × ℝ × X))) _ t0 T
      hY.self_of_nhds.2 args).converges
  · have h := contDiff_adjointDynamics (f := f) (dg := dg) (n := 1) (by exact_mod_cast hf) θ (by exact_mod_cast hdg)
    exact C106_euler (fun s w => -adjointDynamics (smoothAdjoint f θ dg) (-s) w)
      (h.comp (by fun_prop : ContDiff ℝ (1 : ℕ) fun p : ℝ × AdjS X P => ((-p.1, p.2) : ℝ × AdjS X P))).neg _ _ _ hz.reverse argsAdj

/-- **C107.** With `midpoint` in both passes the gradient is computed with second order. -/
theorem C107_midpoint {f : P → ℝ → X → X} (hf : ContDiff ℝ 3 fun q : P × ℝ × X => f q.1 q.2.1 q.2.2) {θ : P} {x0 : X}
    {dg : Option (ℝ → X → (X →L[ℝ] ℝ))} (hdg : ContDiff ℝ 2 fun p : ℝ × X => lossCot dg p.1 p.2)
    {G : ℝ → X → ℝ} (hGc : Continuous fun p : ℝ × X => G p.1 p.2) (hG : ∀ t x, HasFDerivAt (G t) (lossCot dg t x) x)
    {ℓ : X → ℝ} (hℓ : ContDiff ℝ 2 ℓ) {t0 T : ℝ} (htT : t0 < T) (Y : P × X → ℝ → X)
    (hY : ∀ᶠ q in 𝓝 (θ, x0), Y q t0 = q.2 ∧ SolvesOn (f q.1) (Y q) t0 T) (args : A) (argsAdj : A') :
    ∃ D : P × X →L[ℝ] ℝ, HasFDerivAt (fun q => ℓ (Y q T) + ∫ s in t0..T, G s (Y q s)) D (θ, x0) ∧
      GradientOrder 2 (midpointSolver (Except PyErr) ℝ X A) args (midpointSolver (Except PyErr) ℝ (AdjS X P) A') argsAdj f θ
        dg ℓ x0 t0 T D := by
  have hf1 : ContDiff ℝ 1 fun q : P × ℝ × X => f q.1 q.2.1 q.2.2 := hf.of_le (by norm_num)
  have hf2 : ContDiff ℝ 2 fun q : P × ℝ × X => f q.1 q.2.1 q.2.2 := hf.of_le (by norm_num)
  refine gradient_of_converges two_ne_zero hf1 hdg.continuous hGc hG hℓ htT Y hY ?_ fun z hz => ?_
  · exact (C106_midpoint (f θ) (hf2.comp (by fun_prop : ContDiff ℝ 2 fun p : ℝ × X => ((θ, p.1, p.2) : P × ℝ × X))) _ t0 T
      hY.self_of_nhds.2 args).converges
  · have h := contDiff_adjointDynamics (f := f) (dg := dg) (n := 2) (by exact_mod_cast hf) θ (by exact_mod_cast hdg)
    exact C106_midpoint (fun s w => -adjointDynamics (smoothAdjoint f θ dg) (-s) w)
      (h.comp (by fun_prop : ContDiff ℝ (2 : ℕ) fun p : ℝ × AdjS X P => ((-p.1, p.2) : ℝ × AdjS X P))).neg _ _ _ hz.reverse argsAdj

/-- **C107 (partial: autonomous fields and integral losses).** With `rk4` in both passes the gradient is computed with
fourth order. Missing: time dependence, for which `rk4` is not of fourth order (`C82_rk4_time_refuted`). -/
theorem C107_rk4_partial {F : P → X → X} (hF : ContDiff ℝ 5 fun q : P × X => F q.1 q.2) {θ : P} {x0 : X}
    {dg : Option (X → (X →L[ℝ] ℝ))} (hdg : ContDiff ℝ 4 fun x : X => lossCot (dg.map fun g _ x => g x) 0 x)
    {G : X → ℝ} (hG : ∀ x, HasFDerivAt G (lossCot (dg.map fun g _ x => g x) 0 x) x)
    {ℓ : X → ℝ} (hℓ : ContDiff ℝ 2 ℓ) {t0 T : ℝ} (htT : t0 < T) (Y : P × X → ℝ → X)
    (hY : ∀ᶠ q in 𝓝 (θ, x0), Y q t0 = q.2 ∧ SolvesOn (fun _ => F q.1) (Y q) t0 T) (args : A) (argsAdj : A') :
    ∃ D : P × X →L[ℝ] ℝ, HasFDerivAt (fun q => ℓ (Y q T) + ∫ s in t0..T, G (Y q s)) D (θ, x0) ∧
      GradientOrder 4 (rk4Solver (Except PyErr) ℝ X A) args (rk4Solver (Except PyErr) ℝ (AdjS X P) A') argsAdj
        (fun θ _ x => F θ x) θ (dg.map fun g _ x => g x) ℓ x0 t0 T D := by
  have hcot : ∀ t x, lossCot (dg.map fun g (_ : ℝ) x => g x) t x = lossCot (dg.map fun g (_ : ℝ) x => g x) 0 x := by
    intro t x
    cases dg <;> rfl
  have hf : ContDiff ℝ 5 fun q : P × ℝ × X => F q.1 q.2.2 :=
    hF.comp (by fun_prop : ContDiff ℝ 5 fun q : P × ℝ × X => ((q.1, q.2.2) : P × X))
  have hdg' : ContDiff ℝ 4 fun p : ℝ × X => lossCot (dg.map fun g (_ : ℝ) x => g x) p.1 p.2 := by
    simp only [hcot]
    exact hdg.comp contDiff_snd
  have hGc : Continuous G := continuous_iff_continuousAt.2 fun x => (hG x).continuousAt
  refine gradient_of_converges (f := fun θ _ x => F θ x) (G := fun _ => G) four_ne_zero (hf.of_le (by norm_num))
    hdg'.continuous (hGc.comp continuous_snd) (fun t x => by rw [hcot]; exact hG x) hℓ htT Y hY ?_ fun z hz => ?_
  · refine (C106_rk4_partial (F θ) ?_ _ t0 T hY.self_of_nhds.2 args).converges
    exact (hF.of_le (by norm_num)).comp (by fun_prop : ContDiff ℝ 4 fun x : X => ((θ, x) : P × X))
  · have h := contDiff_adjointDynamics (f := fun θ _ x => F θ x) (n := 4) (by exact_mod_cast hf) θ (by exact_mod_cast hdg')
    have e : ∀ t w, adjointDynamics (smoothAdjoint (fun θ (_ : ℝ) x => F θ x) θ (dg.map fun g (_ : ℝ) x => g x)) t w =
        adjointDynamics (smoothAdjoint (fun θ (_ : ℝ) x => F θ x) θ (dg.map fun g (_ : ℝ) x => g x)) 0 w := by
      intro t w
      rw [adjointDynamics_smooth, adjointDynamics_smooth, hcot]
      simp
    have hz' := hz.reverse
    simp only [fun s w => e (-s) w] at hz' ⊢
    exact C106_rk4_partial (fun w => -adjointDynamics (smoothAdjoint (fun θ (_ : ℝ) x => F θ x) θ
        (dg.map fun g (_ : ℝ) x => g x)) 0 w)
      (h.comp (by fun_prop : ContDiff ℝ (4 : ℕ) fun w : AdjS X P => ((0, w) : ℝ × AdjS X P))).neg _ _ _ hz' argsAdj

/-- Non-vacuity: the gradient of `x(1)²` for `x' = θ x` at `θ = 2`, `x0 = 1`, computed with `rk4`, converges with fourth
order to the gradient of `(θ, x0) ↦ (e^θ x0)²`. -/
example : ∃ D : ℝ × ℝ →L[ℝ] ℝ, HasFDerivAt (fun q : ℝ × ℝ => (Real.exp (q.1 * 1) * q.2) ^ 2 + ∫ _s in (0 : ℝ)..1, (0 : ℝ)) D (2, 1) ∧
    GradientOrder 4 (rk4Solver (Except PyErr) ℝ ℝ Unit) () (rk4Solver (Except PyErr) ℝ (AdjS ℝ ℝ) Unit) ()
      (fun θ _ x => θ * x) 2 none (fun x => x ^ 2) 1 0 1 D := by
  refine C107_rk4_partial (F := fun θ x => θ * x) (dg := none) (G := fun _ => 0) (ℓ := fun x => x ^ 2) (by fun_prop) ?_ ?_
    (by fun_prop) one_pos (fun q t => Real.exp (q.1 * t) * q.2) ?_ () ()
  · simpa [lossCot] using contDiff_const
  · intro x
    exact hasFDerivAt_const _ _
  · refine Filter.Eventually.of_forall fun q => ⟨by simp, fun t _ => ?_⟩
    have h1 : HasDerivAt (fun t : ℝ => q.1 * t) q.1 t := by simpa using (hasDerivAt_id t).const_mul q.1
    exact ((h1.exp.mul_const q.2).congr_deriv (by ring)).hasDerivWithinAt

end numeric

end exact

end Torchdyn
