import Mathlib.Analysis.ODE.ExistUnique
import Mathlib.Analysis.ODE.Gronwall
import Mathlib.Analysis.Calculus.MeanValue
import Mathlib.Analysis.Normed.Module.FiniteDimension

/-!
Facts about ordinary differential equations that Mathlib does not have: global existence for Lipschitz fields, and the
differentiability of solutions in their initial values.
-/

namespace Torchdyn

open Set

section existence

variable {ι : Type} [Fintype ι]

/-- Clip every entry to `[-R, R]`. -/
noncomputable def clip (R : ℝ) (x : ι → ℝ) : ι → ℝ := fun i => max (-R) (min R (x i))

theorem clip_norm_le {R : ℝ} (hR : 0 ≤ R) (x : ι → ℝ) : ‖clip R x‖ ≤ R := by
  rw [pi_norm_le_iff_of_nonneg hR]
  intro i
  rw [Real.norm_eq_abs, abs_le]
  exact ⟨le_max_left _ _, max_le (by linarith) (min_le_left _ _)⟩

theorem clip_of_le {R : ℝ} {x : ι → ℝ} (hx : ‖x‖ ≤ R) : clip R x = x := by
  funext i
  have := (norm_le_pi_norm x i).trans hx
  rw [Real.norm_eq_abs, abs_le] at this
  rw [clip, min_eq_right this.2, max_eq_right this.1]

theorem clip_norm_le_self {R : ℝ} (hR : 0 ≤ R) (x : ι → ℝ) : ‖clip R x‖ ≤ ‖x‖ := by
  rw [pi_norm_le_iff_of_nonneg (norm_nonneg _)]
  intro i
  have h := norm_le_pi_norm x i
  rw [Real.norm_eq_abs, abs_le] at h
  rw [Real.norm_eq_abs, abs_le, clip]
  refine ⟨?_, max_le (by linarith [norm_nonneg x]) ((min_le_right _ _).trans h.2)⟩
  rcases le_total R (x i) with hc | hc
  · rw [min_eq_left hc]
    exact le_trans (by linarith [norm_nonneg x]) (le_max_right _ _)
  · rw [min_eq_right hc]
    exact h.1.trans (le_max_right _ _)

theorem clip_lipschitz (R : ℝ) : LipschitzWith 1 (clip (ι := ι) R) := by
  refine LipschitzWith.of_dist_le_mul fun x y => ?_
  rw [NNReal.coe_one, one_mul, dist_pi_le_iff dist_nonneg]
  intro i
  refine le_trans ?_ (dist_le_pi_dist x y i)
  rw [clip, clip, Real.dist_eq, Real.dist_eq]
  have h1 := abs_max_sub_max_le_max (-R) (min R (x i)) (-R) (min R (y i))
  have h2 := abs_min_sub_min_le_max R (x i) R (y i)
  simp only [sub_self, abs_zero] at h1 h2
  rw [max_eq_right (abs_nonneg (min R (x i) - min R (y i)))] at h1
  rw [max_eq_right (abs_nonneg (x i - y i))] at h2
  exact h1.trans h2

/-- A field that is Lipschitz in the state, with one constant for all times, and continuous in time has a solution on the
whole interval through every initial value. -/
theorem exists_solution {F : ℝ → (ι → ℝ) → (ι → ℝ)} {a b : ℝ} (hab : a ≤ b) (K : NNReal)
    (hK : ∀ t ∈ Icc a b, LipschitzWith K (F t)) (hc : ∀ x, ContinuousOn (F · x) (Icc a b)) (x0 : ι → ℝ) :
    ∃ y : ℝ → ι → ℝ, y a = x0 ∧ ∀ t ∈ Icc a b, HasDerivWithinAt y (F t (y t)) (Icc a b) t := by
  obtain ⟨M, hM⟩ := isCompact_Icc.exists_bound_of_continuousOn (hc 0)
  have hM0 : 0 ≤ M := (norm_nonneg _).trans (hM a ⟨le_rfl, hab⟩)
  have hgrow : ∀ t ∈ Icc a b, ∀ x, ‖F t x‖ ≤ K * ‖x‖ + M := by
    intro t ht x
    have h1 := (hK t ht).dist_le_mul x 0
    rw [dist_eq_norm, dist_zero_right] at h1
    have h2 : ‖F t x‖ ≤ ‖F t x - F t 0‖ + ‖F t 0‖ := by
      simpa using norm_add_le (F t x - F t 0) (F t 0)
    linarith [hM t ht]
  set R := gronwallBound ‖x0‖ K M (b - a) with hRdef
  have hmono := gronwallBound_mono (norm_nonneg x0) hM0 K.coe_nonneg
  have hR0 : ‖x0‖ ≤ R := by
    have := hmono (sub_nonneg.2 hab)
    rwa [gronwallBound_x0] at this
  have hR : 0 ≤ R := (norm_nonneg _).trans hR0
  set L : NNReal := ⟨K * R + M, by positivity⟩ with hL
  have hpl : IsPicardLindelof (fun t x => F t (clip R x)) (⟨a, le_rfl, hab⟩ : Icc a b) x0
      (L * ⟨b - a, sub_nonneg.2 hab⟩) 0 L K := by
    refine ⟨fun t ht => ?_, fun x _ => hc _, fun t ht x _ => ?_, ?_⟩
    · have := (hK t ht).comp (clip_lipschitz (ι := ι) R)
      rw [mul_one] at this
      exact this.lipschitzOnWith
    · refine (hgrow t ht _).trans ?_
      have := mul_le_mul_of_nonneg_left (clip_norm_le hR x) K.coe_nonneg
      change (K : ℝ) * ‖clip R x‖ + M ≤ K * R + M
      linarith
    · rw [max_eq_left (by simpa using hab), NNReal.coe_zero, sub_zero]
      exact le_rfl
  obtain ⟨y, hy0, hy⟩ := hpl.exists_eq_forall_mem_Icc_hasDerivWithinAt₀
  have hyc : ContinuousOn y (Icc a b) := fun t ht => (hy t ht).continuousWithinAt
  have hle : ∀ t ∈ Icc a b, ‖y t‖ ≤ R := by
    intro t ht
    have := norm_le_gronwallBound_of_norm_deriv_right_le (f := y) (f' := fun t => F t (clip R (y t))) (δ := ‖x0‖) (K := K)
      (ε := M) (a := a) (b := b) hyc (fun s hs => (hy s ⟨hs.1, hs.2.le⟩).mono_of_mem_nhdsWithin
        (Icc_mem_nhdsGE_of_mem hs)) (by rw [show y a = x0 from hy0]) (fun s hs => by
          refine (hgrow s ⟨hs.1, hs.2.le⟩ _).trans ?_
          have := mul_le_mul_of_nonneg_left (clip_norm_le_self hR (y s)) K.coe_nonneg
          change (K : ℝ) * ‖clip R (y s)‖ + M ≤ K * ‖y s‖ + M
          linarith) t ht
    exact this.trans (hmono (by linarith [ht.2]))
  refine ⟨y, hy0, fun t ht => ?_⟩
  have := hy t ht
  rwa [clip_of_le (hle t ht)] at this

/-- The same in any finite-dimensional space. -/
theorem exists_solution_fd {E : Type} [NormedAddCommGroup E] [NormedSpace ℝ E] [FiniteDimensional ℝ E] {F : ℝ → E → E}
    {a b : ℝ} (hab : a ≤ b) (K : NNReal) (hK : ∀ t ∈ Icc a b, LipschitzWith K (F t))
    (hc : ∀ x, ContinuousOn (F · x) (Icc a b)) (x0 : E) :
    ∃ y : ℝ → E, y a = x0 ∧ ∀ t ∈ Icc a b, HasDerivWithinAt y (F t (y t)) (Icc a b) t := by
  obtain ⟨e⟩ : Nonempty (E ≃L[ℝ] (Fin (Module.finrank ℝ E) → ℝ)) := ⟨ContinuousLinearEquiv.ofFinrankEq (by simp)⟩
  generalize Module.finrank ℝ E = n at e
  have hK' : ∀ t ∈ Icc a b, LipschitzWith (‖(e : E →L[ℝ] (Fin n → ℝ))‖₊ * (K * ‖(e.symm : (Fin n → ℝ) →L[ℝ] E)‖₊))
      (fun z => e (F t (e.symm z))) :=
    fun t ht => e.lipschitz.comp ((hK t ht).comp e.symm.lipschitz)
  obtain ⟨z, hz0, hz⟩ := exists_solution hab _ hK' (fun x => e.continuous.comp_continuousOn (hc _)) (e x0)
  refine ⟨fun t => e.symm (z t), by simp [hz0], fun t ht => ?_⟩
  have := e.symm.hasFDerivAt.comp_hasDerivWithinAt t (hz t ht)
  simpa [Function.comp_def] using this

end existence

section flow

set_option linter.unusedSectionVars false

variable {E : Type} [NormedAddCommGroup E] [NormedSpace ℝ E] [ProperSpace E]

theorem deriv_right {y : ℝ → E} {y' : E} {a b t : ℝ} (h : HasDerivWithinAt y y' (Icc a b) t) (ht : t ∈ Ico a b) :
    HasDerivWithinAt y y' (Ici t) t := h.mono_of_mem_nhdsWithin (Icc_mem_nhdsGE_of_mem ht)

/-- A field with a continuous derivative in the state is Lipschitz on balls, uniformly in compact times. -/
theorem lipschitz_on_ball {g : ℝ → E → E} (hg : Continuous fun p : ℝ × E => fderiv ℝ (g p.1) p.2)
    (hd : ∀ t, Differentiable ℝ (g t)) (a b R : ℝ) :
    ∃ K : NNReal, 0 < K ∧ (∀ t ∈ Icc a b, LipschitzOnWith K (g t) (Metric.closedBall (0 : E) R)) ∧
      ∀ t ∈ Icc a b, ∀ x ∈ Metric.closedBall (0 : E) R, ‖fderiv ℝ (g t) x‖ ≤ K := by
  have hcomp : IsCompact (Icc a b ×ˢ Metric.closedBall (0 : E) R) := isCompact_Icc.prod (isCompact_closedBall _ _)
  obtain ⟨C, hC⟩ := hcomp.exists_bound_of_continuousOn hg.continuousOn
  have hC' : ∀ t ∈ Icc a b, ∀ x ∈ Metric.closedBall (0 : E) R, ‖fderiv ℝ (g t) x‖ ≤ (Real.toNNReal C + 1 : NNReal) := by
    intro t ht x hx
    have := (hC (t, x) ⟨ht, hx⟩).trans (Real.le_coe_toNNReal C)
    push_cast
    linarith
  refine ⟨Real.toNNReal C + 1, by positivity, fun t ht => ?_, hC'⟩
  exact (convex_closedBall (0 : E) R).lipschitzOnWith_of_nnnorm_fderiv_le (fun x _ => hd t x) (fun x hx => hC' t ht x hx)

/-- Solutions of `x' = g(t, x)` on `[a, b]`. -/
def SolutionOn (g : ℝ → E → E) (y : ℝ → E) (a b : ℝ) : Prop :=
  ∀ t ∈ Icc a b, HasDerivWithinAt y (g t (y t)) (Icc a b) t

theorem SolutionOn.continuousOn {g : ℝ → E → E} {y : ℝ → E} {a b : ℝ} (h : SolutionOn g y a b) :
    ContinuousOn y (Icc a b) := fun t ht => (h t ht).continuousWithinAt

/-- Solutions that start close stay close. -/
theorem solution_near {g : ℝ → E → E} (hg : Continuous fun p : ℝ × E => fderiv ℝ (g p.1) p.2)
    (hd : ∀ t, Differentiable ℝ (g t)) {y : ℝ → E} {a b : ℝ} (hy : SolutionOn g y a b) :
    ∃ C > 0, ∃ δ > 0, ∀ z, SolutionOn g z a b → ‖z a - y a‖ ≤ δ → ∀ t ∈ Icc a b, ‖z t - y t‖ ≤ C * ‖z a - y a‖ := by
  by_cases hab : a ≤ b
  swap
  · exact ⟨1, one_pos, 1, one_pos, fun z _ _ t ht => absurd (ht.1.trans ht.2) hab⟩
  obtain ⟨R, hR⟩ := (isCompact_Icc.image_of_continuousOn hy.continuousOn).isBounded.subset_closedBall (0 : E)
  obtain ⟨K, -, hK, -⟩ := lipschitz_on_ball hg hd a b (R + 1)
  have hyR : ∀ t ∈ Icc a b, ‖y t‖ ≤ R := fun t ht => by simpa using hR (mem_image_of_mem _ ht)
  set C := Real.exp (K * (b - a)) with hC
  have hC1 : 0 < C := Real.exp_pos _
  refine ⟨C, hC1, 1 / (2 * C), by positivity, fun z hz hza => ?_⟩
  -- the bound on any initial interval on which the solutions are within distance one
  have key : ∀ τ ∈ Icc a b, (∀ t ∈ Ico a τ, ‖z t - y t‖ ≤ 1) → ‖z τ - y τ‖ ≤ C * ‖z a - y a‖ := by
    intro τ hτ hin
    have hsub : Icc a τ ⊆ Icc a b := Icc_subset_Icc_right hτ.2
    have := dist_le_of_trajectories_ODE_of_mem (v := g) (s := fun _ => Metric.closedBall (0 : E) (R + 1)) (K := K)
      (f := z) (g := y) (a := a) (b := τ) (δ := ‖z a - y a‖)
      (fun t ht => hK t (hsub ⟨ht.1, ht.2.le⟩)) (hz.continuousOn.mono hsub)
      (fun t ht => deriv_right (hz t (hsub ⟨ht.1, ht.2.le⟩)) ⟨ht.1, ht.2.trans_le hτ.2⟩)
      (fun t ht => by
        have h1 := hin t ht
        have h2 := hyR t (hsub ⟨ht.1, ht.2.le⟩)
        have h3 : ‖z t‖ ≤ ‖z t - y t‖ + ‖y t‖ := by simpa using norm_add_le (z t - y t) (y t)
        rw [mem_closedBall_zero_iff]
        linarith)
      (hy.continuousOn.mono hsub)
      (fun t ht => deriv_right (hy t (hsub ⟨ht.1, ht.2.le⟩)) ⟨ht.1, ht.2.trans_le hτ.2⟩)
      (fun t ht => by
        rw [mem_closedBall_zero_iff]
        linarith [hyR t (hsub ⟨ht.1, ht.2.le⟩)])
      (by rw [dist_eq_norm]) τ ⟨hτ.1, le_rfl⟩
    rw [dist_eq_norm, mul_comm] at this
    refine this.trans (mul_le_mul_of_nonneg_right ?_ (norm_nonneg _))
    exact Real.exp_le_exp.2 (mul_le_mul_of_nonneg_left (by linarith [hτ.2]) K.coe_nonneg)
  have hhalf : C * ‖z a - y a‖ ≤ 1 / 2 := by
    have := mul_le_mul_of_nonneg_left hza hC1.le
    have e : C * (1 / (2 * C)) = 1 / 2 := by field_simp
    linarith
  have hall : ∀ t ∈ Icc a b, ‖z t - y t‖ < 1 := by
    by_contra hcon
    push Not at hcon
    obtain ⟨t1, ht1, h1⟩ := hcon
    have hcl : IsCompact (Icc a b ∩ (fun t => ‖z t - y t‖) ⁻¹' Ici 1) := by
      have hcont : ContinuousOn (fun t => ‖z t - y t‖) (Icc a b) := (hz.continuousOn.sub hy.continuousOn).norm
      exact isCompact_Icc.of_isClosed_subset (hcont.preimage_isClosed_of_isClosed isClosed_Icc isClosed_Ici)
        inter_subset_left
    obtain ⟨τ, ⟨hτ, hτ1⟩, hmin⟩ := hcl.exists_isLeast ⟨t1, ht1, h1⟩
    have := key τ hτ (fun t ht => by
      by_contra hlt
      push Not at hlt
      exact absurd (hmin ⟨⟨ht.1, ht.2.le.trans hτ.2⟩, hlt.le⟩) (not_le.2 ht.2))
    have h2 : (1 : ℝ) ≤ ‖z τ - y τ‖ := hτ1
    linarith
  exact fun t ht => key t ht (fun s hs => (hall s ⟨hs.1, hs.2.le.trans ht.2⟩).le)

/-- Solutions with the same initial value agree. -/
theorem solution_unique {g : ℝ → E → E} (hg : Continuous fun p : ℝ × E => fderiv ℝ (g p.1) p.2)
    (hd : ∀ t, Differentiable ℝ (g t)) {y z : ℝ → E} {a b : ℝ} (hy : SolutionOn g y a b) (hz : SolutionOn g z a b)
    (h : z a = y a) : ∀ t ∈ Icc a b, z t = y t := by
  obtain ⟨C, -, δ, hδ, hc⟩ := solution_near hg hd hy
  intro t ht
  have := hc z hz (by simp [h, hδ.le]) t ht
  rw [h, sub_self, norm_zero, mul_zero] at this
  exact sub_eq_zero.1 (norm_le_zero_iff.1 this)

/-- The solution of the variational equation is the first-order change of the solution, uniformly in time. -/
theorem solution_remainder {g : ℝ → E → E} (hg : Continuous fun p : ℝ × E => fderiv ℝ (g p.1) p.2)
    (hd : ∀ t, Differentiable ℝ (g t)) {y : ℝ → E} {a b : ℝ} (hy : SolutionOn g y a b) (η : ℝ) (hη : 0 < η) :
    ∃ δ > 0, ∀ z u, SolutionOn g z a b → SolutionOn (fun t v => fderiv ℝ (g t) (y t) v) u a b → u a = z a - y a →
      ‖z a - y a‖ ≤ δ → ∀ t ∈ Icc a b, ‖z t - y t - u t‖ ≤ η * ‖z a - y a‖ := by
  by_cases hab : a ≤ b
  swap
  · exact ⟨1, one_pos, fun z u _ _ _ _ t ht => absurd (ht.1.trans ht.2) hab⟩
  obtain ⟨R, hR⟩ := (isCompact_Icc.image_of_continuousOn hy.continuousOn).isBounded.subset_closedBall (0 : E)
  have hyR : ∀ t ∈ Icc a b, ‖y t‖ ≤ R := fun t ht => by simpa using hR (mem_image_of_mem _ ht)
  obtain ⟨K, hK0, -, hK⟩ := lipschitz_on_ball hg hd a b (R + 1)
  have hK0' : (0 : ℝ) < K := hK0
  obtain ⟨C, hC, δ₁, hδ₁, hnear⟩ := solution_near hg hd hy
  set G := (Real.exp (K * (b - a)) - 1) / K with hG
  have hG0 : 0 ≤ G := div_nonneg (sub_nonneg.2 (Real.one_le_exp (mul_nonneg K.coe_nonneg (sub_nonneg.2 hab)))) K.coe_nonneg
  set ε := η / (C * G + 1) with hε
  have hCG : 0 < C * G + 1 := by positivity
  have hε0 : 0 < ε := div_pos hη hCG
  -- uniform differentiability along the solution
  have hunif : ∃ ρ > 0, ρ ≤ 1 ∧ ∀ t ∈ Icc a b, ∀ x, ‖x - y t‖ ≤ ρ → ‖fderiv ℝ (g t) x - fderiv ℝ (g t) (y t)‖ ≤ ε := by
    have hcomp : IsCompact (Icc a b ×ˢ Metric.closedBall (0 : E) (R + 1)) := isCompact_Icc.prod (isCompact_closedBall _ _)
    have huc := hcomp.uniformContinuousOn_of_continuous hg.continuousOn
    rw [Metric.uniformContinuousOn_iff_le] at huc
    obtain ⟨ρ, hρ, h⟩ := huc ε hε0
    refine ⟨min ρ 1, lt_min hρ one_pos, min_le_right _ _, fun t ht x hx => ?_⟩
    have h1 : ‖x‖ ≤ R + 1 := by
      have h3 : ‖x‖ ≤ ‖x - y t‖ + ‖y t‖ := by simpa using norm_add_le (x - y t) (y t)
      linarith [hyR t ht, min_le_right ρ 1]
    have := h (t, x) ⟨ht, by simpa using h1⟩ (t, y t) ⟨ht, by simpa using (hyR t ht).trans (by linarith)⟩ (by
      rw [Prod.dist_eq, dist_self, max_eq_right dist_nonneg, dist_eq_norm]
      exact hx.trans (min_le_left _ _))
    rwa [dist_eq_norm] at this
  obtain ⟨ρ, hρ, hρ1, hρu⟩ := hunif
  refine ⟨min δ₁ (ρ / C), lt_min hδ₁ (div_pos hρ hC), fun z u hz hu hua hza t ht => ?_⟩
  have hdist : ∀ s ∈ Icc a b, ‖z s - y s‖ ≤ C * ‖z a - y a‖ := hnear z hz (hza.trans (min_le_left _ _))
  have hdistρ : ∀ s ∈ Icc a b, ‖z s - y s‖ ≤ ρ := fun s hs => by
    refine (hdist s hs).trans ?_
    have := mul_le_mul_of_nonneg_left (hza.trans (min_le_right _ _)) hC.le
    rwa [mul_div_cancel₀ _ hC.ne'] at this
  have hbr : ∀ s ∈ Icc a b, ‖g s (z s) - g s (y s) - fderiv ℝ (g s) (y s) (z s - y s)‖ ≤ ε * ‖z s - y s‖ := by
    intro s hs
    refine (convex_closedBall (y s) ρ).norm_image_sub_le_of_norm_hasFDerivWithin_le'
      (f' := fun x => fderiv ℝ (g s) x) (fun x _ => (hd s x).hasFDerivAt.hasFDerivWithinAt) (fun x hx => ?_)
      (Metric.mem_closedBall_self hρ.le) (by simpa [dist_eq_norm] using hdistρ s hs)
    exact hρu s hs x (by simpa [dist_eq_norm] using hx)
  have hgr := norm_le_gronwallBound_of_norm_deriv_right_le (f := fun s => z s - y s - u s)
    (f' := fun s => g s (z s) - g s (y s) - fderiv ℝ (g s) (y s) (u s)) (δ := 0) (K := K)
    (ε := ε * (C * ‖z a - y a‖)) (a := a) (b := b)
    ((hz.continuousOn.sub hy.continuousOn).sub hu.continuousOn)
    (fun s hs => by
      have hs' : s ∈ Icc a b := ⟨hs.1, hs.2.le⟩
      exact ((deriv_right (hz s hs') hs).sub (deriv_right (hy s hs') hs)).sub (deriv_right (hu s hs') hs))
    (by rw [hua]; simp)
    (fun s hs => by
      have hs' : s ∈ Icc a b := ⟨hs.1, hs.2.le⟩
      have e : g s (z s) - g s (y s) - fderiv ℝ (g s) (y s) (u s) =
          fderiv ℝ (g s) (y s) (z s - y s - u s) + (g s (z s) - g s (y s) - fderiv ℝ (g s) (y s) (z s - y s)) := by
        simp only [map_sub]
        abel
      rw [e]
      refine (norm_add_le _ _).trans (add_le_add ?_ ?_)
      · refine (ContinuousLinearMap.le_opNorm _ _).trans (mul_le_mul_of_nonneg_right ?_ (norm_nonneg _))
        exact hK s hs' _ (by simpa using (hyR s hs').trans (by linarith))
      · exact (hbr s hs').trans (mul_le_mul_of_nonneg_left (hdist s hs') hε0.le)) t ht
  refine hgr.trans ?_
  rw [gronwallBound_of_K_ne_0 hK0'.ne']
  have h1 : Real.exp (K * (t - a)) - 1 ≤ Real.exp (K * (b - a)) - 1 :=
    sub_le_sub_right (Real.exp_le_exp.2 (mul_le_mul_of_nonneg_left (by linarith [ht.2]) K.coe_nonneg)) _
  have h2 : 0 ≤ ε * (C * ‖z a - y a‖) / K := by positivity
  calc 0 * Real.exp (K * (t - a)) + ε * (C * ‖z a - y a‖) / K * (Real.exp (K * (t - a)) - 1)
      ≤ ε * (C * ‖z a - y a‖) / K * (Real.exp (K * (b - a)) - 1) := by
        rw [zero_mul, zero_add]
        exact mul_le_mul_of_nonneg_left h1 h2
    _ = ε * (C * G) * ‖z a - y a‖ := by rw [hG]; field_simp
    _ ≤ ε * (C * G + 1) * ‖z a - y a‖ :=
        mul_le_mul_of_nonneg_right (mul_le_mul_of_nonneg_left (by linarith) hε0.le) (norm_nonneg _)
    _ = η * ‖z a - y a‖ := by rw [hε, div_mul_cancel₀ _ hCG.ne']

end flow

end Torchdyn
