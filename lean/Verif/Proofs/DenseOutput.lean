import Verif.Proofs.Order

/-! Expansion of solutions and of weighted sums of Runge-Kutta stages in powers of the step size (for dense output). -/

set_option linter.unusedSectionVars false

namespace Spec

open Filter Topology Asymptotics Finset RTree Set

variable {E : Type*} [NormedAddCommGroup E] [NormedSpace ℝ E]

open Classical in
/-- Coefficient of `s ^ k` in the expansion of the solution of `x' = f x` at distance `s` from `x`, from the trees with `k`
vertices. -/
noncomputable def solCoef (f : E → E) (x : E) (k : ℕ) : E :=
  ∑ τ ∈ (treesLe k).filter (fun τ => τ.order = k), (1 / (τ.density : ℝ)) • elemDiff (taylorSeries f x) τ

theorem sum_solCoef (f : E → E) (x : E) (n : ℕ) (d : ℕ → ℝ) :
    ∑ k ∈ Finset.range (n + 1), d k • solCoef f x k =
      ∑ τ ∈ treesLe n, (d τ.order * (1 / (τ.density : ℝ))) • elemDiff (taylorSeries f x) τ := by
  classical
  rw [← Finset.sum_fiberwise_of_maps_to (s := treesLe n) (t := Finset.range (n + 1)) (g := RTree.order)
    (fun τ hτ => by rw [mem_treesLe] at hτ; simp; omega)]
  refine Finset.sum_congr rfl fun k hk => ?_
  rw [solCoef, Finset.smul_sum]
  have : (treesLe k).filter (fun τ => τ.order = k) = (treesLe n).filter (fun τ => τ.order = k) := by
    ext τ
    simp only [Finset.mem_filter, mem_treesLe, Finset.mem_range] at hk ⊢
    constructor
    · rintro ⟨_, h⟩; exact ⟨by omega, h⟩
    · rintro ⟨_, h⟩; exact ⟨by omega, h⟩
  rw [this]
  refine Finset.sum_congr rfl fun τ hτ => ?_
  rw [(Finset.mem_filter.1 hτ).2, smul_smul]

/-- Expansion of solutions. -/
theorem flow_coef {f : E → E} {t0 T : ℝ} {y : ℝ → E} {n : ℕ} (hf : ContDiff ℝ (n + 1) f)
    (hy : ∀ t ∈ Icc t0 T, HasDerivWithinAt y (f (y t)) (Icc t0 T) t) :
    ∃ C δ, 0 ≤ C ∧ 0 < δ ∧ ∀ t h, t0 ≤ t → 0 ≤ h → h ≤ δ → t + h ≤ T →
      ‖y (t + h) - y t - ∑ k ∈ Finset.range (n + 2), h ^ k • solCoef f (y t) k‖ ≤ C * h ^ (n + 2) := by
  have hyc : ContinuousOn y (Icc t0 T) := fun t ht => (hy t ht).continuousWithinAt
  have hK : IsCompact (y '' Icc t0 T) := isCompact_Icc.image_of_continuousOn hyc
  have hx : ∀ᶠ p in stepFilter t0 T, y p.1 ∈ y '' Icc t0 T :=
    eventually_stepFilter.2 ⟨1, one_pos, fun t h h1 h2 _ h4 => ⟨t, ⟨h1, by linarith⟩, rfl⟩⟩
  have hexp : ∀ m ≤ n, Expands (stepFilter t0 T) f (fun p => y p.1) (fun p => taylorSeries f (y p.1)) m := fun m hm =>
    expands_of_contDiff (hf.of_le (by exact_mod_cast Nat.succ_le_succ hm)) hK hx
  have h2 := flow_bexp hf.continuous hy hexp (n + 1) le_rfl
  obtain ⟨C, hC, h3⟩ := h2.exists_nonneg
  rw [IsBigOWith_def] at h3
  obtain ⟨δ, hδ, h3⟩ := eventually_stepFilter.1 h3
  refine ⟨C, δ, hC, hδ, fun t h a1 a2 a3 a4 => ?_⟩
  have := h3 t h a1 a2 a3 a4
  simp only [norm_pow, Real.norm_of_nonneg a2] at this
  rw [sum_solCoef f (y t) (n + 1) (fun k => h ^ k)]
  exact this

/-- Expansion of a weighted sum of stages whose tree coefficients are `d(|τ|) / γ(τ)` up to `ε`. -/
theorem rk_weights {f : E → E} {t0 T : ℝ} {y : ℝ → E} {n : ℕ} (hf : ContDiff ℝ (n + 1) f) (hyc : ContinuousOn y (Icc t0 T))
    (A : List (List ℝ)) (hA : Explicit 0 A) (b : List ℝ) (d : ℕ → ℝ) (ε : ℝ)
    (hord : ∀ τ : RTree, τ.order ≤ n + 1 → |dot b (τ.stageWeights A) - d τ.order * (1 / (τ.density : ℝ))| ≤ ε) :
    ∃ C D δ, 0 ≤ C ∧ 0 ≤ D ∧ 0 < δ ∧ ∀ t h, t0 ≤ t → 0 ≤ h → h ≤ δ → t + h ≤ T →
      ‖h • comb b (rkStages f (y t) h A []) - ∑ k ∈ Finset.range (n + 2), (h ^ k * d k) • solCoef f (y t) k‖ ≤
        C * h ^ (n + 2) + ε * (D * h) := by
  have hK : IsCompact (y '' Icc t0 T) := isCompact_Icc.image_of_continuousOn hyc
  have hx : ∀ᶠ p in stepFilter t0 T, y p.1 ∈ y '' Icc t0 T :=
    eventually_stepFilter.2 ⟨1, one_pos, fun t h h1 h2 _ h4 => ⟨t, ⟨h1, by linarith⟩, rfl⟩⟩
  have hexp : Expands (stepFilter t0 T) f (fun p => y p.1) (fun p => taylorSeries f (y p.1)) n :=
    expands_of_contDiff hf hK hx
  have hl := stepFilter_tendsto t0 T
  have h1 := rk_bexp hl hexp A hA b
  have hsm : (fun p : ℝ × ℝ => ∑ τ ∈ treesLe (n + 1), |p.2| ^ τ.order * ‖elemDiff (taylorSeries f (y p.1)) τ‖)
      =O[stepFilter t0 T] (Prod.snd : ℝ × ℝ → ℝ) := by
    apply IsBigO.fun_sum
    intro τ hτ
    have e := elemDiff_isBigO hexp.bdd _ τ le_rfl (mem_treesLe.1 hτ)
    have := (IsBigO.norm_left (pow_isBigO hl τ.order_pos)).mul (IsBigO.norm_left e)
    simpa using this
  obtain ⟨C, hC, h3⟩ := h1.exists_nonneg
  obtain ⟨D, hD, h4⟩ := hsm.exists_nonneg
  rw [IsBigOWith_def] at h3 h4
  obtain ⟨δ, hδ, h5⟩ := eventually_stepFilter.1 (h3.and h4)
  refine ⟨C, D, δ, hC, hD, hδ, fun t h a1 a2 a3 a4 => ?_⟩
  obtain ⟨b1, b2⟩ := h5 t h a1 a2 a3 a4
  simp only [norm_pow, Real.norm_of_nonneg a2] at b1 b2
  have b3 : ∑ τ ∈ treesLe (n + 1), |h| ^ τ.order * ‖elemDiff (taylorSeries f (y t)) τ‖ ≤ D * h := (le_abs_self _).trans b2
  rw [sum_solCoef f (y t) (n + 1) (fun k => h ^ k * d k)]
  have hdiff : ‖∑ τ ∈ treesLe (n + 1), (h ^ τ.order * dot b (τ.stageWeights A)) • elemDiff (taylorSeries f (y t)) τ -
      ∑ τ ∈ treesLe (n + 1), (h ^ τ.order * d τ.order * (1 / (τ.density : ℝ))) • elemDiff (taylorSeries f (y t)) τ‖ ≤
        ε * (D * h) := by
    rw [← Finset.sum_sub_distrib]
    refine (norm_sum_le _ _).trans ?_
    have hε : 0 ≤ ε := (abs_nonneg _).trans (hord (.node []) (by simp [RTree.order, RTree.orders]))
    refine le_trans ?_ (mul_le_mul_of_nonneg_left b3 hε)
    rw [Finset.mul_sum]
    refine Finset.sum_le_sum fun τ hτ => ?_
    rw [← sub_smul, mul_assoc, ← mul_sub, norm_smul, norm_mul, norm_pow, Real.norm_eq_abs, Real.norm_eq_abs]
    have hd := hord τ (mem_treesLe.1 hτ)
    calc |h| ^ τ.order * |dot b (τ.stageWeights A) - d τ.order * (1 / (τ.density : ℝ))| * ‖elemDiff (taylorSeries f (y t)) τ‖
        = |dot b (τ.stageWeights A) - d τ.order * (1 / (τ.density : ℝ))| *
            (|h| ^ τ.order * ‖elemDiff (taylorSeries f (y t)) τ‖) := by ring
      _ ≤ _ := mul_le_mul_of_nonneg_right hd (by positivity)
  calc _ = ‖(h • comb b (rkStages f (y t) h A []) -
          ∑ τ ∈ treesLe (n + 1), (h ^ τ.order * dot b (τ.stageWeights A)) • elemDiff (taylorSeries f (y t)) τ) +
        (∑ τ ∈ treesLe (n + 1), (h ^ τ.order * dot b (τ.stageWeights A)) • elemDiff (taylorSeries f (y t)) τ -
          ∑ τ ∈ treesLe (n + 1), (h ^ τ.order * d τ.order * (1 / (τ.density : ℝ))) • elemDiff (taylorSeries f (y t)) τ)‖ := by
        rw [sub_add_sub_cancel]
    _ ≤ _ := (norm_add_le _ _).trans (add_le_add b1 hdiff)

end Spec
