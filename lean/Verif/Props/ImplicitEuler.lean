import Verif.Model.ImplicitEuler
import Verif.Props.FixedStep
import Mathlib.Analysis.InnerProductSpace.PiL2
import Mathlib.Analysis.Calculus.MeanValue
import Mathlib.Analysis.Calculus.Deriv.Prod
import Mathlib.Analysis.Calculus.Deriv.Slope
import Mathlib.Analysis.Calculus.FDeriv.Pow
import Mathlib.Analysis.Calculus.LocalExtr.Basic

/-!
Property C99: `ieuler` on stiff problems. Solvability of the implicit equation, what a converged optimiser returns,
contractivity and accuracy of whole integrations with any step size, with constants that do not depend on the Lipschitz
constant of the field.
-/

set_option linter.unusedSectionVars false

namespace Torchdyn

open Set Spec
open scoped Topology

section l2

variable {ι : Type} [Fintype ι]

/-- Euclidean norm. -/
noncomputable def l2 (v : ι → ℝ) : ℝ := Real.sqrt (∑ i, v i ^ 2)

theorem l2_eq (v : ι → ℝ) : l2 v = ‖WithLp.toLp 2 v‖ := by
  rw [EuclideanSpace.norm_eq]
  simp [l2]

theorem l2_nonneg (v : ι → ℝ) : 0 ≤ l2 v := Real.sqrt_nonneg _

theorem l2_sq (v : ι → ℝ) : l2 v ^ 2 = ∑ i, v i ^ 2 := Real.sq_sqrt (Finset.sum_nonneg fun _ _ => sq_nonneg _)

theorem l2_add (u v : ι → ℝ) : l2 (u + v) ≤ l2 u + l2 v := by
  simp only [l2_eq]
  exact norm_add_le _ _

theorem l2_neg (v : ι → ℝ) : l2 (-v) = l2 v := by
  simp [l2]

theorem l2_sub_le (u v : ι → ℝ) : l2 (u - v) ≤ l2 u + l2 v := by
  rw [sub_eq_add_neg, ← l2_neg v]
  exact l2_add _ _

theorem l2_smul (c : ℝ) (v : ι → ℝ) : l2 (c • v) = |c| * l2 v := by
  simp only [l2_eq]
  exact norm_smul c (WithLp.toLp 2 v)

theorem l2_zero : l2 (0 : ι → ℝ) = 0 := by simp [l2]

theorem l2_inner (u v : ι → ℝ) : ∑ i, u i * v i ≤ l2 u * l2 v := by
  have := Finset.sum_mul_sq_le_sq_mul_sq Finset.univ u v
  rw [← l2_sq, ← l2_sq, ← mul_pow] at this
  exact (le_abs_self _).trans (abs_le_of_sq_le_sq this (mul_nonneg (l2_nonneg _) (l2_nonneg _)))

theorem l2_le_zero {v : ι → ℝ} (h : l2 v ≤ 0) : v = 0 := by
  have h1 : ∑ i, v i ^ 2 = 0 := by rw [← l2_sq, le_antisymm h (l2_nonneg _)]; simp
  funext i
  have := (Finset.sum_eq_zero_iff_of_nonneg (fun i _ => sq_nonneg (v i))).1 h1 i (Finset.mem_univ i)
  simpa using this

theorem l2_continuous : Continuous (l2 : (ι → ℝ) → ℝ) := by
  unfold l2
  fun_prop

end l2

section onesided

variable {ι : Type} [Fintype ι]

/-- One-sided Lipschitz condition: `⟨g x - g x', x - x'⟩ ≤ ν |x - x'|²`. With `ν ≤ 0` the differential equation `x' = g x` is
dissipative, however large the Lipschitz constant of `g`. -/
def OneSided (ν : ℝ) (g : (ι → ℝ) → (ι → ℝ)) : Prop :=
  ∀ x x', ∑ i, (g x i - g x' i) * (x i - x' i) ≤ ν * ∑ i, (x i - x' i) ^ 2

/-- Two implicit Euler steps with defects `r`, `r'`. -/
theorem implicit_contract {g : (ι → ℝ) → (ι → ℝ)} {ν h : ℝ} (hg : OneSided ν g) (hh : 0 ≤ h)
    {x x' z z' r r' : ι → ℝ} (hz : z = x + h • g z + r) (hz' : z' = x' + h • g z' + r') :
    (1 - h * ν) * l2 (z - z') ≤ l2 (x - x') + l2 (r - r') := by
  have e : ∀ i, z i - z' i = (x - x' + (r - r')) i + h * (g z i - g z' i) := by
    intro i
    have h1 := congrFun hz i
    have h2 := congrFun hz' i
    simp only [Pi.add_apply, Pi.smul_apply, Pi.sub_apply, smul_eq_mul] at h1 h2 ⊢
    linarith
  have h1 : l2 (z - z') ^ 2 ≤ l2 (x - x' + (r - r')) * l2 (z - z') + h * (ν * l2 (z - z') ^ 2) := by
    have hs := hg z z'
    have hi := l2_inner (x - x' + (r - r')) (z - z')
    have e2 : l2 (z - z') ^ 2 = ∑ i, (x - x' + (r - r')) i * (z - z') i + h * ∑ i, (g z i - g z' i) * (z i - z' i) := by
      rw [l2_sq, Finset.mul_sum, ← Finset.sum_add_distrib]
      refine Finset.sum_congr rfl fun i _ => ?_
      have := e i
      simp only [Pi.sub_apply] at this ⊢
      rw [sq]
      nth_rewrite 1 [this]
      ring
    have e3 : ∑ i, (z i - z' i) ^ 2 = l2 (z - z') ^ 2 := by rw [l2_sq]; rfl
    rw [e3] at hs
    have := mul_le_mul_of_nonneg_left hs hh
    linarith
  rcases (l2_nonneg (z - z')).eq_or_lt with h0 | h0
  · rw [← h0, mul_zero]
    exact add_nonneg (l2_nonneg _) (l2_nonneg _)
  · have h2 : (1 - h * ν) * l2 (z - z') ≤ l2 (x - x' + (r - r')) := by
      refine le_of_mul_le_mul_right ?_ h0
      nlinarith
    exact h2.trans (l2_add _ _)

/-- The derivative of a one-sided Lipschitz map. -/
theorem OneSided.deriv {g : (ι → ℝ) → (ι → ℝ)} {ν : ℝ} (hg : OneSided ν g) {D : (ι → ℝ) →L[ℝ] (ι → ℝ)} {z : ι → ℝ}
    (hD : HasFDerivAt g D z) (v : ι → ℝ) : ∑ i, D v i * v i ≤ ν * ∑ i, v i ^ 2 := by
  have hline : HasDerivAt (fun s : ℝ => z + s • v) v 0 := by
    simpa using ((hasDerivAt_id (0 : ℝ)).smul_const v).const_add z
  have hz : z + (0 : ℝ) • v = z := by simp
  have h1 : HasDerivAt (fun s : ℝ => g (z + s • v)) (D v) 0 :=
    HasFDerivAt.comp_hasDerivAt_of_eq (0 : ℝ) hD hline hz.symm
  have h2 : HasDerivAt (fun s : ℝ => ∑ i, g (z + s • v) i * v i) (∑ i, D v i * v i) 0 :=
    HasDerivAt.fun_sum fun i _ => (hasDerivAt_pi.1 h1 i).mul_const (v i)
  have h3 : HasDerivAt (fun s : ℝ => ∑ i, g (z + s • v) i * v i - s * (ν * ∑ i, v i ^ 2))
      (∑ i, D v i * v i - ν * ∑ i, v i ^ 2) 0 := by
    have h4 : HasDerivAt (fun s : ℝ => s * (ν * ∑ i, v i ^ 2)) (ν * ∑ i, v i ^ 2) 0 := by
      simpa using (hasDerivAt_id (0 : ℝ)).mul_const (ν * ∑ i, v i ^ 2)
    exact h2.sub h4
  by_contra hcon
  push Not at hcon
  have hpos : 0 < ∑ i, D v i * v i - ν * ∑ i, v i ^ 2 := by linarith
  have hev2 := (h3.tendsto_slope_zero_right).eventually (lt_mem_nhds hpos)
  obtain ⟨s, hs, hs0⟩ := (hev2.and self_mem_nhdsWithin).exists
  have hs0' : (0 : ℝ) < s := hs0
  have hs' : 0 < (∑ i, g (z + s • v) i * v i - s * (ν * ∑ i, v i ^ 2)) - ∑ i, g z i * v i := by
    have := (mul_pos_iff_of_pos_left (inv_pos.2 hs0')).1 hs
    simpa using this
  have ho := hg (z + s • v) z
  have e1 : ∑ i, (g (z + s • v) i - g z i) * ((z + s • v) i - z i) =
      s * (∑ i, g (z + s • v) i * v i - ∑ i, g z i * v i) := by
    rw [← Finset.sum_sub_distrib, Finset.mul_sum]
    refine Finset.sum_congr rfl fun i _ => ?_
    simp only [Pi.add_apply, Pi.smul_apply, smul_eq_mul]
    ring
  have e2 : ∑ i, ((z + s • v) i - z i) ^ 2 = s * (s * ∑ i, v i ^ 2) := by
    rw [Finset.mul_sum, Finset.mul_sum]
    refine Finset.sum_congr rfl fun i _ => ?_
    simp only [Pi.add_apply, Pi.smul_apply, smul_eq_mul]
    ring
  rw [e1, e2] at ho
  have := le_of_mul_le_mul_left (by linarith : s * (∑ i, g (z + s • v) i * v i - ∑ i, g z i * v i) ≤
    s * (s * (ν * ∑ i, v i ^ 2))) hs0'
  linarith

/-- The residual of the implicit Euler equation. -/
noncomputable def implicitRes (g : (ι → ℝ) → (ι → ℝ)) (x : ι → ℝ) (h : ℝ) (z : ι → ℝ) : ℝ := ∑ i, (z i - x i - h * g z i) ^ 2

theorem implicitRes_hasFDerivAt {g : (ι → ℝ) → (ι → ℝ)} {x : ι → ℝ} {h : ℝ} {z : ι → ℝ} {D : (ι → ℝ) →L[ℝ] (ι → ℝ)}
    (hD : HasFDerivAt g D z) :
    ∃ R : (ι → ℝ) →L[ℝ] ℝ, HasFDerivAt (implicitRes g x h) R z ∧
      ∀ v, R v = 2 * ∑ i, (z i - x i - h * g z i) * (v i - h * D v i) := by
  have hi : ∀ i, HasFDerivAt (fun z : ι → ℝ => z i - x i - h * g z i)
      (ContinuousLinearMap.proj (R := ℝ) (φ := fun _ : ι => ℝ) i - h • (ContinuousLinearMap.proj (R := ℝ) (φ := fun _ : ι => ℝ) i).comp D) z := by
    intro i
    have h1 : HasFDerivAt (fun z : ι → ℝ => z i) (ContinuousLinearMap.proj (R := ℝ) (φ := fun _ : ι => ℝ) i) z :=
      (ContinuousLinearMap.proj (R := ℝ) (φ := fun _ : ι => ℝ) i).hasFDerivAt
    have h2 : HasFDerivAt (fun z : ι → ℝ => g z i) ((ContinuousLinearMap.proj (R := ℝ) (φ := fun _ : ι => ℝ) i).comp D) z :=
      hasFDerivAt_pi'.1 hD i
    exact (h1.sub_const (x i)).sub (h2.const_mul h)
  refine ⟨_, HasFDerivAt.fun_sum fun i _ => (hi i).pow 2, fun v => ?_⟩
  simp only [sum_apply, smul_apply, sub_apply,
    ContinuousLinearMap.proj_apply, ContinuousLinearMap.comp_apply, smul_eq_mul, Finset.mul_sum]
  refine Finset.sum_congr rfl fun i _ => ?_
  ring

/-- **C99.** What a converged optimiser returns: at every stationary point of the residual, the residual is zero, for every
differentiable field with `dt ν < 1`. -/
theorem C99_stationary {g : (ι → ℝ) → (ι → ℝ)} {ν h : ℝ} (hg : OneSided ν g) (hh : 0 ≤ h) (hν : h * ν < 1) {x z : ι → ℝ}
    (hd : DifferentiableAt ℝ g z) (hstat : fderiv ℝ (implicitRes g x h) z = 0) : z = x + h • g z := by
  obtain ⟨R, hR, hRv⟩ := implicitRes_hasFDerivAt (x := x) (h := h) hd.hasFDerivAt
  rw [hR.fderiv] at hstat
  set d : ι → ℝ := fun i => z i - x i - h * g z i with hddef
  have h1 := hRv d
  rw [hstat] at h1
  have h2 : ∑ i, d i * (d i - h * fderiv ℝ g z d i) = 0 := by
    have : (0 : (ι → ℝ) →L[ℝ] ℝ) d = 0 := rfl
    rw [this] at h1
    linarith
  have h3 : ∑ i, d i * (d i - h * fderiv ℝ g z d i) = ∑ i, d i ^ 2 - h * ∑ i, fderiv ℝ g z d i * d i := by
    rw [Finset.mul_sum, ← Finset.sum_sub_distrib]
    exact Finset.sum_congr rfl fun i _ => by ring
  have h4 := mul_le_mul_of_nonneg_left (hg.deriv hd.hasFDerivAt d) hh
  have h5 : (1 - h * ν) * ∑ i, d i ^ 2 ≤ 0 := by linarith
  have h6 : ∑ i, d i ^ 2 ≤ 0 := by
    by_contra hcon
    push Not at hcon
    have := mul_pos (by linarith : 0 < 1 - h * ν) hcon
    linarith
  have h7 : d = 0 := l2_le_zero (by rw [l2, le_antisymm h6 (Finset.sum_nonneg fun _ _ => sq_nonneg _), Real.sqrt_zero])
  funext i
  have := congrFun h7 i
  simp only [hddef, Pi.zero_apply] at this
  simp only [Pi.add_apply, Pi.smul_apply, smul_eq_mul]
  linarith

/-- **C99.** The implicit Euler equation has exactly one solution, for every differentiable field with `dt ν < 1`: in
particular for every step size on dissipative fields. -/
theorem C99_solvable {g : (ι → ℝ) → (ι → ℝ)} {ν h : ℝ} (hg : OneSided ν g) (hh : 0 ≤ h) (hν : h * ν < 1)
    (hd : Differentiable ℝ g) (x : ι → ℝ) : ∃! z, z = x + h • g z := by
  have hc : Continuous (implicitRes g x h) := by
    have := hd.continuous
    unfold implicitRes
    fun_prop
  have hk : 0 < 1 - h * ν := by linarith
  -- coercivity
  have hco : ∀ z, (1 - h * ν) * l2 z - l2 (x + h • g 0) ≤ Real.sqrt (implicitRes g x h z) := by
    intro z
    have hz : z = x + h • g z + (z - x - h • g z) := by abel
    have hz0 : (0 : ι → ℝ) = x + h • g 0 + (-x - h • g 0) := by abel
    have := implicit_contract hg hh hz hz0
    rw [sub_zero, sub_self, l2_zero, zero_add] at this
    have h2 := l2_sub_le (z - x - h • g z) (-x - h • g 0)
    have e : l2 (-x - h • g 0) = l2 (x + h • g 0) := by
      rw [← l2_neg]
      congr 1
      abel
    have e2 : l2 (z - x - h • g z) = Real.sqrt (implicitRes g x h z) := by
      unfold l2 implicitRes
      simp
    rw [e, e2] at h2
    linarith
  have htend : Filter.Tendsto (implicitRes g x h) (Filter.cocompact _) Filter.atTop := by
    have h1 : Filter.Tendsto (fun z : ι → ℝ => (1 - h * ν) * ‖z‖ - l2 (x + h • g 0)) (Filter.cocompact _) Filter.atTop :=
      Filter.tendsto_atTop_add_const_right _ _ (Filter.Tendsto.const_mul_atTop hk tendsto_norm_cocompact_atTop)
    have h2 : ∀ z : ι → ℝ, ‖z‖ ≤ l2 z := by
      intro z
      rw [pi_norm_le_iff_of_nonneg (l2_nonneg _)]
      intro i
      rw [Real.norm_eq_abs]
      refine abs_le_of_sq_le_sq ?_ (l2_nonneg _)
      rw [l2_sq]
      exact Finset.single_le_sum (f := fun i => z i ^ 2) (fun _ _ => sq_nonneg _) (Finset.mem_univ i)
    have h3 : Filter.Tendsto (fun z : ι → ℝ => Real.sqrt (implicitRes g x h z)) (Filter.cocompact _) Filter.atTop := by
      refine Filter.tendsto_atTop_mono (fun z => ?_) h1
      have := mul_le_mul_of_nonneg_left (h2 z) hk.le
      linarith [hco z]
    have h4 := h3.comp (f := id) Filter.tendsto_id
    have h5 : Filter.Tendsto (fun z : ι → ℝ => Real.sqrt (implicitRes g x h z) * Real.sqrt (implicitRes g x h z))
        (Filter.cocompact _) Filter.atTop := h3.atTop_mul_atTop₀ h3
    refine h5.congr fun z => Real.mul_self_sqrt (Finset.sum_nonneg fun _ _ => sq_nonneg _)
  obtain ⟨z, hz⟩ := hc.exists_forall_le htend
  refine ⟨z, ?_, fun z' hz' => ?_⟩
  · exact C99_stationary hg hh hν (hd z) ((IsLocalMin.fderiv_eq_zero (Filter.Eventually.of_forall hz)))
  · have hzz : z = x + h • g z := C99_stationary hg hh hν (hd z) ((IsLocalMin.fderiv_eq_zero (Filter.Eventually.of_forall hz)))
    have := implicit_contract hg hh (r := 0) (r' := 0) (by rw [add_zero]; exact hz') (by rw [add_zero]; exact hzz)
    rw [sub_self, sub_self, l2_zero, add_zero] at this
    have h0 : l2 (z' - z) ≤ 0 := by
      by_contra hcon
      push Not at hcon
      have := mul_pos hk hcon
      linarith
    exact sub_eq_zero.1 (l2_le_zero h0)

end onesided

section runs

variable {ι : Type} [Fintype ι] {A : Type}

/-- What is assumed of the optimiser: it returns on functions that return, and on the residuals of implicit Euler steps of
nonnegative size it reaches a value of at most `ε²`. -/
structure Minimises (minimise : ((ι → ℝ) → Except PyErr ℝ) → (ι → ℝ) → Except PyErr (ι → ℝ)) (f : ℝ → (ι → ℝ) → (ι → ℝ))
    (ε : ℝ) : Prop where
  returns : ∀ F x, (∀ z, ∃ r, F z = .ok r) → ∃ z, minimise F x = .ok z
  accurate : ∀ x t dt z, 0 ≤ dt → minimise (ieulerResidual (pureField f) x t dt) x = .ok z →
    ∑ i, (z i - x i - dt * f t z i) ^ 2 ≤ ε ^ 2

variable {minimise : ((ι → ℝ) → Except PyErr ℝ) → (ι → ℝ) → Except PyErr (ι → ℝ)} {f : ℝ → (ι → ℝ) → (ι → ℝ)} {ε : ℝ}

/-- **C99.** Convergence of the optimiser to stationary points is enough: if it returns a point where the gradient of the
closure vanishes, then on dissipative differentiable fields every step of `ieuler` solves its equation exactly. -/
theorem C99_converged
    (hopt : ∀ F x, (∀ z, ∃ r, F z = .ok r) → ∃ z, minimise F x = .ok z ∧
      ∀ R : (ι → ℝ) → ℝ, (∀ z, F z = .ok (R z)) → fderiv ℝ R z = 0)
    {ν : ℝ} (hν : ν ≤ 0) (hf : ∀ t, OneSided ν (f t)) (hd : ∀ t, Differentiable ℝ (f t)) : Minimises minimise f 0 := by
  refine ⟨fun F x hF => ?_, fun x t dt z hdt hz => ?_⟩
  · obtain ⟨z, hz, -⟩ := hopt F x hF
    exact ⟨z, hz⟩
  · obtain ⟨z', hz', hstat⟩ := hopt (ieulerResidual (pureField f) x t dt) x fun z => ⟨_, rfl⟩
    have e : z' = z := Except.ok.inj (hz'.symm.trans hz)
    subst e
    have := C99_stationary (hf t) hdt ((mul_nonpos_of_nonneg_of_nonpos hdt hν).trans_lt one_pos) (hd t z')
      (hstat (implicitRes (f t) x dt) fun z => rfl)
    refine le_of_eq ?_
    rw [zero_pow two_ne_zero]
    refine Finset.sum_eq_zero fun i _ => ?_
    have hi := congrFun this i
    simp only [Pi.add_apply, Pi.smul_apply, smul_eq_mul] at hi
    rw [sq_eq_zero_iff]
    linarith

/-- A step of the solver. -/
theorem Minimises.steppedBy (hm : Minimises minimise f ε) (hε : 0 ≤ ε) (args : A) :
    ∃ φ, SteppedBy (implicitEulerSolver minimise) f args φ ∧
      ∀ x t dt, 0 ≤ dt → ∃ r, φ x t dt = x + dt • f t (φ x t dt) + r ∧ l2 r ≤ ε := by
  have h : ∀ x t dt, ∃ z, minimise (ieulerResidual (pureField f) x t dt) x = .ok z := fun x t dt =>
    hm.returns _ _ fun z => ⟨_, rfl⟩
  choose φ hφ using h
  refine ⟨φ, fun x t dt => ⟨none, none, ?_⟩, fun x t dt hdt => ?_⟩
  · change (do
      let xSol ← minimise (ieulerResidual (pureField f) x t dt) x
      pure (StepOut.three none xSol none) : Except PyErr (StepOut (ι → ℝ))) = _
    rw [hφ]
    rfl
  · refine ⟨φ x t dt - x - dt • f t (φ x t dt), by abel, ?_⟩
    have := hm.accurate x t dt (φ x t dt) hdt (hφ x t dt)
    rw [l2, ← Real.sqrt_sq hε]
    exact Real.sqrt_le_sqrt this

/-- **C99.** Contractivity on every increasing grid with any step sizes: if the field satisfies the one-sided Lipschitz
condition with constant `-c ≤ 0` at all times, the distance of two integrations with `ieuler` shrinks by the factor
`1 / (1 + c dt)` in every step, up to the tolerance of the optimiser. -/
theorem C99_contractive (hm : Minimises minimise f ε) (hε : 0 ≤ ε) {c : ℝ} (hf : ∀ t, OneSided (-c) (f t))
    (args : A) (x x' : ι → ℝ) (t0 t1 : ℝ) (rest : List ℝ) (hmono : (t0 :: t1 :: rest).Pairwise (· ≤ ·))
    (hsep : Separated (t0 :: t1 :: rest)) :
    ∃ sol sol', odeintFixed (pureField f) x (t0 :: t1 :: rest) (implicitEulerSolver minimise) [] args =
        .ok (t0 :: t1 :: rest, sol) ∧
      odeintFixed (pureField f) x' (t0 :: t1 :: rest) (implicitEulerSolver minimise) [] args =
        .ok (t0 :: t1 :: rest, sol') ∧
      sol[0]? = some x ∧ sol'[0]? = some x' ∧
      ∀ (k : ℕ) (t t' : ℝ) (z w z' w' : ι → ℝ), (t0 :: t1 :: rest)[k]? = some t → (t0 :: t1 :: rest)[k + 1]? = some t' →
        sol[k]? = some z → sol[k + 1]? = some w → sol'[k]? = some z' → sol'[k + 1]? = some w' →
        (1 + c * (t' - t)) * l2 (w - w') ≤ l2 (z - z') + 2 * ε := by
  obtain ⟨φ, hs, hφ⟩ := hm.steppedBy hε args
  have h01 : t0 ≤ t1 := (List.pairwise_cons.1 hmono).1 t1 (by simp)
  obtain ⟨sol, hrun, htr⟩ := C12_trajectory hs x t0 t1 rest h01 hsep
  obtain ⟨sol', hrun', htr'⟩ := C12_trajectory hs x' t0 t1 rest h01 hsep
  refine ⟨sol, sol', hrun, hrun', htr.start, htr'.start, ?_⟩
  intro k t t' z w z' w' hk hk' hz hw hz' hw'
  have hle : t ≤ t' := by
    obtain ⟨h1, rfl⟩ := List.getElem?_eq_some_iff.1 hk
    obtain ⟨h2, rfl⟩ := List.getElem?_eq_some_iff.1 hk'
    exact List.pairwise_iff_getElem.1 hmono k (k + 1) h1 h2 (by omega)
  have e1 : w = φ z t (t' - t) := Option.some.inj (hw.symm.trans (htr.next k t t' z hk hk' hz))
  have e2 : w' = φ z' t (t' - t) := Option.some.inj (hw'.symm.trans (htr'.next k t t' z' hk hk' hz'))
  obtain ⟨r, hr, hrε⟩ := hφ z t (t' - t) (sub_nonneg.2 hle)
  obtain ⟨r', hr', hrε'⟩ := hφ z' t (t' - t) (sub_nonneg.2 hle)
  rw [← e1] at hr
  rw [← e2] at hr'
  have := implicit_contract (hf t) (sub_nonneg.2 hle) hr hr'
  have h3 := l2_sub_le r r'
  have e3 : 1 - (t' - t) * -c = 1 + c * (t' - t) := by ring
  rw [e3] at this
  linarith

/-- The defect of an exact solution in the equation that `ieuler` solves (with the field at the old time). -/
theorem ieuler_defect {y : ℝ → ι → ℝ} {t0 T M₁ M₂ : ℝ}
    (hy : ∀ t ∈ Icc t0 T, HasDerivWithinAt y (f t (y t)) (Icc t0 T) t)
    (hM₁ : ∀ a b, t0 ≤ a → a ≤ b → b ≤ T → l2 (f b (y b) - f a (y b)) ≤ M₁ * (b - a))
    (hM₂ : ∀ a b, t0 ≤ a → a ≤ b → b ≤ T → l2 (f b (y b) - f a (y a)) ≤ M₂ * (b - a)) {a b : ℝ} (ha : t0 ≤ a)
    (hab : a ≤ b) (hb : b ≤ T) : l2 (y b - y a - (b - a) • f a (y b)) ≤ (M₁ + M₂) * (b - a) ^ 2 := by
  have hsub : Icc a b ⊆ Icc t0 T := Icc_subset_Icc ha hb
  have h1 : l2 (y b - y a - (b - a) • f b (y b)) ≤ M₂ * (b - a) * (b - a) := by
    rcases hab.eq_or_lt with rfl | hlt
    · simp [l2_zero]
    have hM20 : 0 ≤ M₂ := by
      have := (l2_nonneg _).trans (hM₂ a b ha hab hb)
      exact nonneg_of_mul_nonneg_left this (sub_pos.2 hlt)
    have hd : ∀ s ∈ Icc a b, HasDerivWithinAt (fun s => WithLp.toLp 2 (y s - (s - a) • f b (y b)))
        (WithLp.toLp 2 (f s (y s) - f b (y b))) (Icc a b) s := by
      intro s hs
      have h2 : HasDerivWithinAt (fun s : ℝ => (s - a) • f b (y b)) ((1 : ℝ) • f b (y b)) (Icc a b) s :=
        ((hasDerivWithinAt_id s _).sub_const a).smul_const _
      rw [one_smul] at h2
      have h3 := ((hy s (hsub hs)).mono hsub).sub h2
      exact ((PiLp.continuousLinearEquiv 2 ℝ (fun _ : ι => ℝ)).symm.hasFDerivAt).comp_hasDerivWithinAt s h3
    have := norm_image_sub_le_of_norm_deriv_le_segment' hd (C := M₂ * (b - a)) (fun s hs => by
      rw [← l2_eq, ← l2_neg, neg_sub]
      refine (hM₂ s b (ha.trans hs.1) hs.2.le hb).trans ?_
      exact mul_le_mul_of_nonneg_left (by linarith [hs.1]) hM20) b ⟨hab, le_rfl⟩
    rw [← WithLp.toLp_sub, ← l2_eq] at this
    have e : y b - (b - a) • f b (y b) - (y a - (a - a) • f b (y b)) = y b - y a - (b - a) • f b (y b) := by
      rw [sub_self, zero_smul, sub_zero]; abel
    rwa [e] at this
  have h2 : l2 ((b - a) • (f b (y b) - f a (y b))) ≤ (b - a) * (M₁ * (b - a)) := by
    rw [l2_smul, abs_of_nonneg (sub_nonneg.2 hab)]
    exact mul_le_mul_of_nonneg_left (hM₁ a b ha hab hb) (sub_nonneg.2 hab)
  have e : y b - y a - (b - a) • f a (y b) = (y b - y a - (b - a) • f b (y b)) + (b - a) • (f b (y b) - f a (y b)) := by
    rw [smul_sub]; abel
  rw [e]
  refine (l2_add _ _).trans ?_
  linarith

/-- **C99.** Accuracy on stiff problems: for a field that satisfies the one-sided Lipschitz condition with constant `0` and
an exact solution `y` along which the field changes at most with the rates `M₁` (in time) and `M₂` (of `y'`), `ieuler` is
accurate to `(t - t0) (M₁ + M₂) h` plus the accumulated tolerance of the optimiser, on every increasing grid with gaps at
most `h`. The Lipschitz constant of the field does not enter. -/
theorem C99_accuracy (hm : Minimises minimise f ε) (hε : 0 ≤ ε) (hf : ∀ t, OneSided 0 (f t)) (args : A)
    {y : ℝ → ι → ℝ} {t0 T M₁ M₂ : ℝ} (hM₁0 : 0 ≤ M₁) (hM₂0 : 0 ≤ M₂)
    (hy : ∀ t ∈ Icc t0 T, HasDerivWithinAt y (f t (y t)) (Icc t0 T) t)
    (hM₁ : ∀ a b, t0 ≤ a → a ≤ b → b ≤ T → l2 (f b (y b) - f a (y b)) ≤ M₁ * (b - a))
    (hM₂ : ∀ a b, t0 ≤ a → a ≤ b → b ≤ T → l2 (f b (y b) - f a (y a)) ≤ M₂ * (b - a))
    (t1 : ℝ) (rest : List ℝ) (h : ℝ) (hmono : (t0 :: t1 :: rest).Pairwise (· ≤ ·)) (hT : ∀ t ∈ t0 :: t1 :: rest, t ≤ T)
    (hgap : ∀ (k : ℕ) (t t' : ℝ), (t0 :: t1 :: rest)[k]? = some t → (t0 :: t1 :: rest)[k + 1]? = some t' → t' - t ≤ h)
    (hsep : Separated (t0 :: t1 :: rest)) :
    ∃ sol, odeintFixed (pureField f) (y t0) (t0 :: t1 :: rest) (implicitEulerSolver minimise) [] args =
        .ok (t0 :: t1 :: rest, sol) ∧ sol.length = (t0 :: t1 :: rest).length ∧
      ∀ (k : ℕ) (t : ℝ) (z : ι → ℝ), (t0 :: t1 :: rest)[k]? = some t → sol[k]? = some z →
        l2 (z - y t) ≤ (t - t0) * ((M₁ + M₂) * h) + k * ε := by
  obtain ⟨φ, hs, hφ⟩ := hm.steppedBy hε args
  have h01 : t0 ≤ t1 := (List.pairwise_cons.1 hmono).1 t1 (by simp)
  obtain ⟨sol, hrun, htr⟩ := C12_trajectory hs (y t0) t0 t1 rest h01 hsep
  refine ⟨sol, hrun, htr.length_eq, ?_⟩
  intro k
  induction k with
  | zero =>
    intro t z ht hz
    rw [htr.start] at hz
    simp only [List.getElem?_cons_zero, Option.some.injEq] at ht hz
    subst ht hz
    simp [l2_zero]
  | succ k ih =>
    intro t' w ht' hw
    have hk1 : k + 1 < (t0 :: t1 :: rest).length := (List.getElem?_eq_some_iff.1 ht').1
    obtain ⟨t, ht⟩ : ∃ t, (t0 :: t1 :: rest)[k]? = some t := ⟨_, List.getElem?_eq_getElem (by omega)⟩
    obtain ⟨z, hz⟩ : ∃ z, sol[k]? = some z := ⟨_, List.getElem?_eq_getElem (by rw [htr.length_eq]; omega)⟩
    have hle : t ≤ t' := by
      obtain ⟨h1, rfl⟩ := List.getElem?_eq_some_iff.1 ht
      obtain ⟨h2, rfl⟩ := List.getElem?_eq_some_iff.1 ht'
      exact List.pairwise_iff_getElem.1 hmono k (k + 1) h1 h2 (by omega)
    have ht0 : t0 ≤ t := by
      rcases List.mem_cons.1 (List.mem_of_getElem? ht) with rfl | hm
      · exact le_rfl
      · exact (List.pairwise_cons.1 hmono).1 t hm
    have hih := ih t z ht hz
    have e1 : w = φ z t (t' - t) := Option.some.inj (hw.symm.trans (htr.next k t t' z ht ht' hz))
    obtain ⟨r, hr, hrε⟩ := hφ z t (t' - t) (sub_nonneg.2 hle)
    rw [← e1] at hr
    have hyr : y t' = y t + (t' - t) • f t (y t') + (y t' - y t - (t' - t) • f t (y t')) := by abel
    have hc := implicit_contract (hf t) (sub_nonneg.2 hle) hr hyr
    rw [mul_zero, sub_zero, one_mul] at hc
    have h3 := l2_sub_le r (y t' - y t - (t' - t) • f t (y t'))
    have hdef := ieuler_defect hy hM₁ hM₂ ht0 hle (hT t' (List.mem_of_getElem? ht'))
    have hg := hgap k t t' ht ht'
    have h4 : (M₁ + M₂) * (t' - t) ^ 2 ≤ (t' - t) * ((M₁ + M₂) * h) := by
      have : (M₁ + M₂) * (t' - t) * (t' - t) ≤ (M₁ + M₂) * (t' - t) * h :=
        mul_le_mul_of_nonneg_left hg (mul_nonneg (add_nonneg hM₁0 hM₂0) (sub_nonneg.2 hle))
      nlinarith
    push_cast
    linarith

/-- Non-vacuity: the stiff problem `x' = -1000 x` with the closed-form solution of the implicit equation. -/
example : ∃ minimise : ((Unit → ℝ) → Except PyErr ℝ) → (Unit → ℝ) → Except PyErr (Unit → ℝ),
    Minimises minimise (fun _ x i => -1000 * x i) 0 ∧ OneSided (-1000) (fun (x : Unit → ℝ) i => -1000 * x i) := by
  classical
  refine ⟨fun F x => .ok (if h : ∃ z, F z = .ok 0 then h.choose else x), ⟨fun F x _ => ⟨_, rfl⟩, ?_⟩, ?_⟩
  · intro x t dt z hdt hz
    have hex : ∃ z, ieulerResidual (pureField fun _ (x : Unit → ℝ) i => -1000 * x i) x t dt z = .ok 0 := by
      refine ⟨fun i => x i / (1 + 1000 * dt), ?_⟩
      have h0 : 1 + 1000 * dt ≠ 0 := by positivity
      simp only [ieulerResidual, pureField, pure_bind]
      refine congrArg Except.ok ?_
      simp only [Finset.univ_unique, Finset.sum_singleton]
      field_simp
      ring
    have hz' := Except.ok.inj hz
    rw [dif_pos hex] at hz'
    have := hex.choose_spec
    rw [hz'] at this
    have := Except.ok.inj this
    rw [this]
    simp
  · intro x x'
    simp only [Finset.univ_unique, Finset.sum_singleton]
    nlinarith

end runs

end Torchdyn
