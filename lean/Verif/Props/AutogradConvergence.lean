import Verif.Props.Autograd
import Verif.Props.LocalConvergence
import Verif.Proofs.Ode

/-!
# Gradients by back-propagation converge to the gradient of the solution (C130)
-/

set_option linter.unusedSectionVars false
set_option linter.unusedSimpArgs false
set_option linter.unusedVariables false

namespace Torchdyn

open Spec Set Topology

section

variable {Q V A : Type} [NormedAddCommGroup Q] [NormedSpace ℝ Q] [FiniteDimensional ℝ Q] [NormedAddCommGroup V] [NormedSpace ℝ V]
  [FiniteDimensional ℝ V]

/-- The family `Y` solves the equations of `f` on `[t0, T]` for all inputs near `q`, and the initial state is differentiable in the
inputs at `q`. -/
def SolutionFamily (f : Q → ℝ → V → V) (q : Q) (Y : Q → ℝ → V) (t0 T : ℝ) : Prop :=
  DifferentiableAt ℝ (fun p => Y p t0) q ∧
    ∀ᶠ p in 𝓝 q, ∀ t ∈ Icc t0 T, HasDerivWithinAt (Y p) (f p t (Y p t)) (Icc t0 T) t

/-- What a user expects of training with `sensitivity='autograd'`: the solution is differentiable in the inputs, and on every increasing
grid in `[t0, T]` with gaps at most `h` the rows obtained by stepping with the solver and their recorded derivatives are within `C h^n`
of the exact solution and of its derivative; these rows are what the call returns on every grid it accepts. -/
def GradientConverges (n : ℕ) (tsolver : Solver (Except PyErr) ℝ (Traced Q V) A) (args : A) (f : Q → ℝ → V → V) (q : Q)
    (Y : Q → ℝ → V) (t0 T : ℝ) : Prop :=
  (∀ t ∈ Icc t0 T, DifferentiableAt ℝ (fun p => Y p t) q) ∧
    ∃ C δ, 0 < δ ∧ ∀ (t1 : ℝ) (rest : List ℝ) (h : ℝ), h ≤ δ → (t0 :: t1 :: rest).Pairwise (· < ·) →
      (∀ t ∈ t0 :: t1 :: rest, t ≤ T) →
      (∀ (k : ℕ) (t t' : ℝ), (t0 :: t1 :: rest)[k]? = some t → (t0 :: t1 :: rest)[k + 1]? = some t' → t' - t ≤ h) →
      ∃ φ tsol, SteppedBy tsolver (tracedField f q) args φ ∧
        IsTrajectory φ (Y q t0, fderiv ℝ (fun p => Y p t0) q) (t0 :: t1 :: rest) tsol ∧
        (Separated (t0 :: t1 :: rest) →
          autogradOdeint f q (Y q t0, fderiv ℝ (fun p => Y p t0) q) (t0 :: t1 :: rest) tsolver [] args =
            .ok (t0 :: t1 :: rest, tsol)) ∧
        ∀ (k : ℕ) (t : ℝ) (y : Traced Q V), (t0 :: t1 :: rest)[k]? = some t → tsol[k]? = some y →
          ‖y.1 - Y q t‖ ≤ C * h ^ n ∧ ‖y.2 - fderiv ℝ (fun p => Y p t) q‖ ≤ C * h ^ n

/-- Solution and derivative solve the traced equation. -/
theorem solution_traced {f : Q → ℝ → V → V} (hf : ContDiff ℝ 1 (fun p : ℝ × Q × V => f p.2.1 p.1 p.2.2)) {q : Q} {Y : Q → ℝ → V}
    {t0 T : ℝ} (hY : SolutionFamily f q Y t0 T) :
    ∃ D : ℝ → Q →L[ℝ] V, (∀ t ∈ Icc t0 T, HasFDerivAt (fun p => Y p t) (D t) q) ∧
      ∀ t ∈ Icc t0 T, HasDerivWithinAt (fun t => ((Y q t, D t) : Traced Q V)) (tracedField f q t (Y q t, D t)) (Icc t0 T) t := by
  obtain ⟨hx, hY⟩ := hY
  by_cases hab : t0 ≤ T
  swap
  · exact ⟨0, fun t ht => absurd (ht.1.trans ht.2) hab, fun t ht => absurd (ht.1.trans ht.2) hab⟩
  have hy : SolutionOn (f q) (Y q) t0 T := hY.self_of_nhds
  have hfd : ∀ t, Differentiable ℝ (fun z : Q × V => f z.1 t z.2) := fun t =>
    (hf.comp (contDiff_const.prodMk contDiff_id : ContDiff ℝ 1 fun z : Q × V => ((t, z) : ℝ × Q × V))).differentiable one_ne_zero
  have hfc : Continuous fun p : ℝ × Q × V => fderiv ℝ (fun z : Q × V => f z.1 p.1 z.2) p.2 := by
    have := ContDiff.fderiv (𝕜 := ℝ) (m := 1) (n := 0) (f := fun (p : ℝ × Q × V) (z : Q × V) => f z.1 p.1 z.2) (g := fun p => p.2)
      (hf.comp (by fun_prop : ContDiff ℝ 1 fun w : (ℝ × Q × V) × (Q × V) => ((w.1.1, w.2) : ℝ × Q × V))) (by fun_prop) (by simp)
    exact this.continuous
  -- the equation with the inputs as additional constant states
  let g : ℝ → Q × V → Q × V := fun t z => (0, f z.1 t z.2)
  have hgd : ∀ t z, HasFDerivAt (g t) ((0 : Q × V →L[ℝ] Q).prod (fderiv ℝ (fun z : Q × V => f z.1 t z.2) z)) z := fun t z =>
    (hasFDerivAt_const (0 : Q) z).prodMk (hfd t z).hasFDerivAt
  have hgc : Continuous fun p : ℝ × Q × V => fderiv ℝ (g p.1) p.2 := by
    have e : (fun p : ℝ × Q × V => fderiv ℝ (g p.1) p.2) = fun p =>
        (ContinuousLinearMap.inr ℝ Q V).comp (fderiv ℝ (fun z : Q × V => f z.1 p.1 z.2) p.2) := by
      funext p
      rw [(hgd p.1 p.2).fderiv]
      ext <;> simp
    rw [e]
    exact continuous_const.clm_comp hfc
  have hz : ∀ p, (∀ t ∈ Icc t0 T, HasDerivWithinAt (Y p) (f p t (Y p t)) (Icc t0 T) t) →
      SolutionOn g (fun t => (p, Y p t)) t0 T := fun p hp t ht => (hasDerivWithinAt_const t _ p).prodMk (hp t ht)
  -- its fundamental solution
  have hDc : ContinuousOn (fun t => fderiv ℝ (g t) (q, Y q t)) (Icc t0 T) :=
    hgc.comp_continuousOn (continuousOn_id.prodMk (continuousOn_const.prodMk hy.continuousOn))
  obtain ⟨C, hC⟩ := isCompact_Icc.exists_bound_of_continuousOn hDc
  obtain ⟨M, hM0, hM⟩ := exists_solution_fd (E := Q × V →L[ℝ] Q × V) (F := fun t M => (fderiv ℝ (g t) (q, Y q t)).comp M) hab
    (Real.toNNReal C) (fun t ht => LipschitzWith.of_dist_le_mul fun M M' => by
      rw [dist_eq_norm, dist_eq_norm, ← ContinuousLinearMap.comp_sub]
      exact (ContinuousLinearMap.opNorm_comp_le _ _).trans
        (mul_le_mul_of_nonneg_right ((hC t ht).trans (Real.le_coe_toNNReal C)) (norm_nonneg _)))
    (fun M => hDc.clm_comp continuousOn_const) (ContinuousLinearMap.id ℝ (Q × V))
  have hM' : ∀ w, SolutionOn (fun t v => fderiv ℝ (g t) (q, Y q t) v) (fun t => M t w) t0 T := fun w t ht => by
    have := (hM t ht).clm_apply (hasDerivWithinAt_const t (Icc t0 T) w)
    simpa using this
  -- the flow is differentiable
  have h0 : HasFDerivAt (fun p => (p, Y p t0)) ((ContinuousLinearMap.id ℝ Q).prod (fderiv ℝ (fun p => Y p t0) q)) q :=
    (hasFDerivAt_id q).prodMk hx.hasFDerivAt
  have hflow : ∀ t ∈ Icc t0 T, HasFDerivAt (fun p => (p, Y p t))
      ((M t).comp ((ContinuousLinearMap.id ℝ Q).prod (fderiv ℝ (fun p => Y p t0) q))) q := by
    intro t ht
    have h1 : HasFDerivAt (fun p => M t (p, Y p t0)) ((M t).comp ((ContinuousLinearMap.id ℝ Q).prod (fderiv ℝ (fun p => Y p t0) q))) q :=
      (M t).hasFDerivAt.comp q h0
    have h2 : (fun p => ((p, Y p t) : Q × V) - (q, Y q t) - M t ((p, Y p t0) - (q, Y q t0))) =o[𝓝 q] fun p => p - q := by
      have h3 : (fun p => ((p, Y p t) : Q × V) - (q, Y q t) - M t ((p, Y p t0) - (q, Y q t0))) =o[𝓝 q]
          fun p => ((p, Y p t0) : Q × V) - (q, Y q t0) := by
        rw [Asymptotics.isLittleO_iff]
        intro η hη
        obtain ⟨δ, hδ, hr⟩ := solution_remainder hgc (fun t z => (hgd t z).differentiableAt) (hz q hy) η hη
        have hcont : Filter.Tendsto (fun p => ((p, Y p t0) : Q × V)) (𝓝 q) (𝓝 (q, Y q t0)) := h0.continuousAt.tendsto
        filter_upwards [hY, hcont (Metric.closedBall_mem_nhds _ hδ)] with p hp hpδ
        exact hr _ _ (hz p hp) (hM' _) (by rw [hM0]; rfl) (by simpa [dist_eq_norm] using hpδ) t ht
      exact h3.trans_isBigO h0.isBigO_sub
    rw [hasFDerivAt_iff_isLittleO] at h1 ⊢
    refine (h1.add h2).congr_left fun p => ?_
    simp only [map_sub]
    abel
  refine ⟨fun t => (ContinuousLinearMap.snd ℝ Q V).comp
    ((M t).comp ((ContinuousLinearMap.id ℝ Q).prod (fderiv ℝ (fun p => Y p t0) q))), fun t ht => ?_, fun t ht => ?_⟩
  · exact (ContinuousLinearMap.snd ℝ Q V).hasFDerivAt.comp q (hflow t ht)
  · refine (hy t ht).prodMk ?_
    have h4 := (hM t ht).clm_comp (hasDerivWithinAt_const t (Icc t0 T) ((ContinuousLinearMap.id ℝ Q).prod (fderiv ℝ (fun p => Y p t0) q)))
    have h5 := (hasDerivWithinAt_const t (Icc t0 T) (ContinuousLinearMap.snd ℝ Q V)).clm_comp h4
    refine h5.congr_deriv ?_
    have h6 : (ContinuousLinearMap.fst ℝ Q V).comp ((M t).comp ((ContinuousLinearMap.id ℝ Q).prod (fderiv ℝ (fun p => Y p t0) q))) =
        ContinuousLinearMap.id ℝ Q :=
      HasFDerivAt.unique ((ContinuousLinearMap.fst ℝ Q V).hasFDerivAt.comp q (hflow t ht)) (hasFDerivAt_id q)
    generalize (ContinuousLinearMap.id ℝ Q).prod (fderiv ℝ (fun p => Y p t0) q) = I at h6 ⊢
    ext w
    have h7 : (M t (I w)).1 = w := by simpa using DFunLike.congr_fun h6 w
    simp [(hgd t (q, Y q t)).fderiv]
    exact congrArg _ (Prod.ext h7 rfl)

/-- The traced field has one derivative less than the field. -/
theorem tracedField_contDiff {n : ℕ} {f : Q → ℝ → V → V} (hf : ContDiff ℝ (n + 1) (fun p : ℝ × Q × V => f p.2.1 p.1 p.2.2)) (q : Q) :
    ContDiff ℝ n (fun p : ℝ × Traced Q V => tracedField f q p.1 p.2) := by
  have h1 : ContDiff ℝ n fun p : ℝ × Traced Q V => f q p.1 p.2.1 :=
    (hf.of_le (by exact_mod_cast Nat.le_succ n)).comp
      (by fun_prop : ContDiff ℝ n fun p : ℝ × Traced Q V => ((p.1, q, p.2.1) : ℝ × Q × V))
  have h2 : ContDiff ℝ n fun p : ℝ × Traced Q V => fderiv ℝ (fun z : Q × V => f z.1 p.1 z.2) (q, p.2.1) :=
    ContDiff.fderiv (𝕜 := ℝ) (m := n + 1) (n := n) (f := fun (p : ℝ × Traced Q V) (z : Q × V) => f z.1 p.1 z.2)
      (g := fun p => (q, p.2.1))
      (hf.comp (by fun_prop : ContDiff ℝ (n + 1) fun w : (ℝ × Traced Q V) × (Q × V) => ((w.1.1, w.2) : ℝ × Q × V)))
      (by fun_prop) le_rfl
  have h3 : ContDiff ℝ n fun p : ℝ × Traced Q V => (ContinuousLinearMap.id ℝ Q).prod p.2.2 := by
    have e : (fun p : ℝ × Traced Q V => (ContinuousLinearMap.id ℝ Q).prod p.2.2) = fun p =>
        ContinuousLinearMap.inl ℝ Q V + (ContinuousLinearMap.inr ℝ Q V).comp p.2.2 := by
      funext p
      ext w <;> simp
    rw [e]
    exact contDiff_const.add (contDiff_const.clm_comp (by fun_prop))
  exact h1.prodMk (h2.clm_comp h3)

theorem gradientConverges {n : ℕ} {tsolver : Solver (Except PyErr) ℝ (Traced Q V) A} {args : A} {f : Q → ℝ → V → V} {q : Q}
    {Y : Q → ℝ → V} {t0 T : ℝ} {D : ℝ → Q →L[ℝ] V} (hD : ∀ t ∈ Icc t0 T, HasFDerivAt (fun p => Y p t) (D t) q)
    (H : ConvergesNear n tsolver args (tracedField f q) (fun t => (Y q t, D t)) t0 T) :
    GradientConverges n tsolver args f q Y t0 T := by
  obtain ⟨C, δ, hC, hδ, H⟩ := H
  refine ⟨fun t ht => (hD t ht).differentiableAt, C, δ, hδ, fun t1 rest h hh hmono hT hgap => ?_⟩
  have hrange : ∀ t ∈ t0 :: t1 :: rest, t ∈ Icc t0 T := fun t ht =>
    ⟨by
      rcases List.mem_cons.1 ht with rfl | ht'
      · exact le_rfl
      · exact ((List.pairwise_cons.1 hmono).1 t ht').le, hT t ht⟩
  have hD0 : fderiv ℝ (fun p => Y p t0) q = D t0 := (hD t0 (hrange t0 (by simp))).fderiv
  obtain ⟨φ, sol, h1, h2, h3, h4⟩ := H (Y q t0, D t0) t1 rest h (by simpa using hδ.le) hh hmono hT hgap
  refine ⟨φ, sol, h1, by rw [hD0]; exact h2, fun hsep => by rw [hD0]; exact h3 hsep, fun k t y hk hy => ?_⟩
  have h5 := h4 k t y hk hy
  rw [sub_self, norm_zero, add_zero] at h5
  rw [(hD t (hrange t (List.mem_of_getElem? hk))).fderiv]
  exact ⟨(norm_fst_le _).trans h5, (norm_snd_le _).trans h5⟩

/-- **C130.** Gradients by back-propagation through `euler` converge with order one to the gradient of the solution. -/
theorem C130_euler_converges {f : Q → ℝ → V → V} (hf : ContDiff ℝ 2 (fun p : ℝ × Q × V => f p.2.1 p.1 p.2.2)) {q : Q} {Y : Q → ℝ → V}
    {t0 T : ℝ} (hY : SolutionFamily f q Y t0 T) (args : A) :
    GradientConverges 1 (eulerSolver (Except PyErr) ℝ (Traced Q V) A) args f q Y t0 T := by
  obtain ⟨D, hD, hs⟩ := solution_traced (hf.of_le (by norm_num)) hY
  exact gradientConverges hD (C106_euler _ (tracedField_contDiff (n := 1) (by exact_mod_cast hf) q) _ t0 T hs args)

/-- **C130.** Gradients by back-propagation through `midpoint` converge with order two. -/
theorem C130_midpoint_converges {f : Q → ℝ → V → V} (hf : ContDiff ℝ 3 (fun p : ℝ × Q × V => f p.2.1 p.1 p.2.2)) {q : Q}
    {Y : Q → ℝ → V} {t0 T : ℝ} (hY : SolutionFamily f q Y t0 T) (args : A) :
    GradientConverges 2 (midpointSolver (Except PyErr) ℝ (Traced Q V) A) args f q Y t0 T := by
  obtain ⟨D, hD, hs⟩ := solution_traced (hf.of_le (by norm_num)) hY
  exact gradientConverges hD (C106_midpoint _ (tracedField_contDiff (n := 2) (by exact_mod_cast hf) q) _ t0 T hs args)

/-- **C130 (partial: autonomous fields).** Gradients by back-propagation through `rk4` converge with order four. Missing: time-dependent
fields, where the states themselves do not (`C82_rk4_time_refuted`). -/
theorem C130_rk4_converges_partial {F : Q → V → V} (hF : ContDiff ℝ 5 (fun p : Q × V => F p.1 p.2)) {q : Q}
    {Y : Q → ℝ → V} {t0 T : ℝ} (hY : SolutionFamily (fun p _ x => F p x) q Y t0 T) (args : A) :
    GradientConverges 4 (rk4Solver (Except PyErr) ℝ (Traced Q V) A) args (fun p _ x => F p x) q Y t0 T := by
  have hf : ContDiff ℝ 5 (fun p : ℝ × Q × V => F p.2.1 p.2.2) := hF.comp (by fun_prop : ContDiff ℝ 5 fun p : ℝ × Q × V => p.2)
  obtain ⟨D, hD, hs⟩ := solution_traced (f := fun p _ x => F p x) (hf.of_le (by norm_num)) hY
  have h1 : ContDiff ℝ 4 (tracedField (fun p (_ : ℝ) x => F p x) q 0) :=
    (tracedField_contDiff (n := 4) (f := fun p _ x => F p x) (by exact_mod_cast hf) q).comp
      (contDiff_const.prodMk contDiff_id : ContDiff ℝ 4 fun y : Traced Q V => ((0 : ℝ), y))
  exact gradientConverges hD (C106_rk4_partial (tracedField (fun p (_ : ℝ) x => F p x) q 0) h1 _ t0 T hs args)

/-- Non-vacuity: `x' = θ x²` from `x(0) = 1`, near `θ = 1` on `[0, 1/2]`, with `x(t) = 1 / (1 - θ t)`: the gradient of the final state of
`rk4` in `θ` converges to `t / (1 - θ t)²` with order four. -/
example : GradientConverges 4 (rk4Solver (Except PyErr) ℝ (Traced ℝ ℝ) Unit) () (fun θ _ x => θ * x ^ 2) 1 (fun θ t => (1 - θ * t)⁻¹)
    0 (1 / 2) := by
  refine C130_rk4_converges_partial (F := fun θ x => θ * x ^ 2) (by fun_prop) ⟨?_, ?_⟩ ()
  · simp
  · filter_upwards [Metric.ball_mem_nhds (1 : ℝ) (by norm_num : (0 : ℝ) < 1 / 2)] with θ hθ t ht
    rw [Metric.mem_ball, Real.dist_eq, abs_lt] at hθ
    have hne : 1 - θ * t ≠ 0 := by
      have := ht.1
      have := ht.2
      intro h
      nlinarith
    have h1 : HasDerivAt (fun t : ℝ => 1 - θ * t) (-θ) t := by simpa using ((hasDerivAt_id t).const_mul θ).const_sub 1
    refine ((h1.inv hne).congr_deriv ?_).hasDerivWithinAt
    field_simp

end

end Torchdyn
