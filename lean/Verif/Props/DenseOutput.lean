import Verif.Proofs.DenseOutput
import Verif.Props.AdaptiveAccuracy
import Verif.Props.Interpolation

/-!
Property C87: accuracy of the fourth order interpolator.
-/

set_option linter.unusedSectionVars false
set_option linter.unusedSimpArgs false

namespace Torchdyn

open Spec Set

section step

variable {V A : Type} [NormedAddCommGroup V] [NormedSpace ℝ V]

/-! ### Time-dependent versions of the expansions -/

/-- State component of the coefficient of `s ^ k` in the expansion of the solution through `(t, x)`. -/
noncomputable def solCoefT (f : ℝ → V → V) (t : ℝ) (x : V) (k : ℕ) : V := (solCoef (withTime f) (t, x) k).2

theorem snd_sum_smul (d : ℕ → ℝ) (c : ℕ → ℝ × V) (s : Finset ℕ) : (∑ k ∈ s, d k • c k).2 = ∑ k ∈ s, d k • (c k).2 := by
  rw [Prod.snd_sum]
  rfl

theorem flowT_coef {f : ℝ → V → V} {n : ℕ} (hf : ContDiff ℝ (n + 1) (fun p : ℝ × V => f p.1 p.2)) {y : ℝ → V} {t0 T : ℝ}
    (hy : ∀ t ∈ Icc t0 T, HasDerivWithinAt y (f t (y t)) (Icc t0 T) t) :
    ∃ C δ, 0 ≤ C ∧ 0 < δ ∧ ∀ t h, t0 ≤ t → 0 ≤ h → h ≤ δ → t + h ≤ T →
      ‖y (t + h) - y t - ∑ k ∈ Finset.range (n + 2), h ^ k • solCoefT f t (y t) k‖ ≤ C * h ^ (n + 2) := by
  obtain ⟨C, δ, hC, hδ, H⟩ := flow_coef (withTime_contDiff hf) (withTime_solution hy)
  refine ⟨C, δ, hC, hδ, fun t h h1 h2 h3 h4 => ?_⟩
  refine le_trans ?_ (H t h h1 h2 h3 h4)
  refine le_trans (le_of_eq ?_) (norm_snd_le _)
  rw [Prod.snd_sub, Prod.snd_sub, snd_sum_smul]
  rfl

theorem rkT_weights {f : ℝ → V → V} {n : ℕ} (hf : ContDiff ℝ (n + 1) (fun p : ℝ × V => f p.1 p.2)) {y : ℝ → V} {t0 T : ℝ}
    (hy : ContinuousOn y (Icc t0 T)) (M : List (List ℝ)) (hM : Explicit 0 M) (b : List ℝ) (d : ℕ → ℝ) (ε : ℝ)
    (hord : ∀ τ : RTree, τ.order ≤ n + 1 → |dot b (τ.stageWeights M) - d τ.order * (1 / (τ.density : ℝ))| ≤ ε) :
    ∃ C D δ, 0 ≤ C ∧ 0 ≤ D ∧ 0 < δ ∧ ∀ t h, t0 ≤ t → 0 ≤ h → h ≤ δ → t + h ≤ T →
      ‖h • comb b (rkStagesT f (y t) t h (M.map fun row => (row.sum, row)) []) -
        ∑ k ∈ Finset.range (n + 2), (h ^ k * d k) • solCoefT f t (y t) k‖ ≤ C * h ^ (n + 2) + ε * (D * h) := by
  obtain ⟨C, D, δ, hC, hD, hδ, H⟩ := rk_weights (withTime_contDiff hf) (y := fun t => (t, y t))
    (continuousOn_id.prodMk hy) M hM b d ε hord
  refine ⟨C, D, δ, hC, hD, hδ, fun t h h1 h2 h3 h4 => ?_⟩
  refine le_trans ?_ (H t h h1 h2 h3 h4)
  have e := rkStages_withTime f (y t) t h M [] hM
  rw [List.map_nil] at e
  rw [e]
  refine le_trans (le_of_eq ?_) (norm_snd_le _)
  rw [Prod.snd_sub, snd_sum_smul, Prod.smul_snd, snd_comb]
  rfl

/-! ### The interpolant -/

theorem interp_linear (dt : ℝ) (f0 f1 x0 x1 xm f0' f1' x0' x1' xm' : V) (t0 t1 t : ℝ) :
    interpEvaluate (fourthOrderFit dt f0 f1 x0 x1 xm) t0 t1 t - interpEvaluate (fourthOrderFit dt f0' f1' x0' x1' xm') t0 t1 t =
      interpEvaluate (fourthOrderFit dt (f0 - f0') (f1 - f1') (x0 - x0') (x1 - x1') (xm - xm')) t0 t1 t := by
  simp only [interp_expand]
  module

theorem interp_bound (dt : ℝ) (f0 f1 x0 x1 xm : V) {t0 t1 t : ℝ} (h01 : t0 < t1) (h0 : t0 ≤ t) (h1 : t ≤ t1) :
    ‖interpEvaluate (fourthOrderFit dt f0 f1 x0 x1 xm) t0 t1 t‖ ≤
      64 * (‖dt • f0‖ + ‖dt • f1‖ + ‖x0‖ + ‖x1‖ + ‖xm‖) := by
  rw [interp_expand]
  obtain ⟨θ, hθ⟩ : ∃ θ, θ = (t - t0) / (t1 - t0) := ⟨_, rfl⟩
  have hθ0 : 0 ≤ θ := by rw [hθ]; exact div_nonneg (by linarith) (by linarith)
  have hθ1 : θ ≤ 1 := by rw [hθ, div_le_one (by linarith)]; linarith
  rw [← hθ]
  have e : (x0 + (θ * dt) • f0 + θ ^ 2 • (dt • (f1 - (4 : ℝ) • f0) - (11 : ℝ) • x0 - (5 : ℝ) • x1 + (16 : ℝ) • xm)
        + θ ^ 3 • (dt • ((5 : ℝ) • f0 - (3 : ℝ) • f1) + (18 : ℝ) • x0 + (14 : ℝ) • x1 - (32 : ℝ) • xm)
        + θ ^ 4 • ((2 * dt) • (f1 - f0) - (8 : ℝ) • (x1 + x0) + (16 : ℝ) • xm)) =
      (θ - 4 * θ ^ 2 + 5 * θ ^ 3 - 2 * θ ^ 4) • (dt • f0) + (θ ^ 2 - 3 * θ ^ 3 + 2 * θ ^ 4) • (dt • f1) +
      (1 - 11 * θ ^ 2 + 18 * θ ^ 3 - 8 * θ ^ 4) • x0 + (-5 * θ ^ 2 + 14 * θ ^ 3 - 8 * θ ^ 4) • x1 +
      (16 * θ ^ 2 - 32 * θ ^ 3 + 16 * θ ^ 4) • xm := by module
  simp only
  rw [e]
  have p2 : θ ^ 2 ≤ 1 := pow_le_one₀ hθ0 hθ1
  have p3 : θ ^ 3 ≤ 1 := pow_le_one₀ hθ0 hθ1
  have p4 : θ ^ 4 ≤ 1 := pow_le_one₀ hθ0 hθ1
  have q2 : 0 ≤ θ ^ 2 := by positivity
  have q3 : 0 ≤ θ ^ 3 := by positivity
  have q4 : 0 ≤ θ ^ 4 := by positivity
  have key : ∀ (a : ℝ) (v : V), |a| ≤ 64 → ‖a • v‖ ≤ 64 * ‖v‖ := fun a v ha => by
    rw [norm_smul, Real.norm_eq_abs]; exact mul_le_mul_of_nonneg_right ha (norm_nonneg _)
  refine (norm_add_le _ _).trans ?_
  rw [mul_add]
  refine add_le_add ?_ (key _ _ (abs_le.2 ⟨by linarith, by linarith⟩))
  refine (norm_add_le _ _).trans ?_
  rw [mul_add]
  refine add_le_add ?_ (key _ _ (abs_le.2 ⟨by linarith, by linarith⟩))
  refine (norm_add_le _ _).trans ?_
  rw [mul_add]
  refine add_le_add ?_ (key _ _ (abs_le.2 ⟨by linarith, by linarith⟩))
  refine (norm_add_le _ _).trans ?_
  rw [mul_add]
  exact add_le_add (key _ _ (abs_le.2 ⟨by linarith, by linarith⟩)) (key _ _ (abs_le.2 ⟨by linarith, by linarith⟩))

theorem interp_shift (coefs : List V) (t h s : ℝ) : interpEvaluate coefs t (t + h) (t + s) = interpEvaluate coefs 0 h s := by
  simp only [interpEvaluate, add_sub_cancel_left, sub_zero]

/-! ### One step with interpolation -/

/-- The five data of the interpolant from the stages of a `dopri5` step. -/
theorem dopri5_stages (f : ℝ → V → V) (x : V) (t h : ℝ) (args : A) :
    ∃ k x' e st, dopri5Step (m := Id) (pureField f) x t h none args = .four k x' e st ∧
      st = rkStagesT f x t h ((0 :: (constructDopri5 ℝ).c).zip (butcherRows (constructDopri5 ℝ))) [] ∧
      f t x = comb [1] st ∧ k = comb [0, 0, 0, 0, 0, 0, 1] st ∧ x' = x + h • comb (constructDopri5 ℝ).bsol st ∧
      interpMid (construct4th ℝ) x h st = x + h • comb (construct4th ℝ) st := by
  refine ⟨_, _, _, _, rfl, ?_, ?_, ?_, ?_, ?_⟩
  · simp only [firstStage, pureField, butcherRows, rkStagesT, comb, nth, nth2, pure, bind, constructDopri5,
      List.getD_cons_zero, List.getD_cons_succ, List.nil_append, List.cons_append, List.zip_cons_cons, List.zip_nil_left,
      smul_add, smul_smul, ← add_assoc, add_zero, smul_zero, zero_mul, zero_smul, mul_zero]
  · simp [comb, firstStage, pureField, pure, bind]
  · simp [comb, pure, bind]
  · simp only [comb, nth, pure, bind, constructDopri5, dopri5Bsol, List.getD_cons_zero, List.getD_cons_succ,
      smul_add, smul_smul, ← add_assoc, add_zero, smul_zero, zero_mul, zero_smul, mul_zero]
  · simp [comb, nth, interpMid, construct4th, List.range_succ, ← add_assoc]

theorem midpoint_weights : ∀ τ : RTree, τ.order ≤ 4 →
    |dot (construct4th ℝ) (τ.stageWeights (butcherRows (constructDopri5 ℝ))) - (1 / 2) ^ τ.order * (1 / (τ.density : ℝ))| ≤
      1 / 10 ^ 16 := by
  have h : ∀ τ : RTree, τ.order ≤ 4 →
      |dot (construct4th ℚ) (τ.stageWeights (butcherRows (constructDopri5 ℚ))) - (1 / 2) ^ τ.order * (1 / (τ.density : ℚ))| ≤
        1 / 10 ^ 16 := forall_trees 3 _ (by decide +kernel)
  intro τ hτ
  have e : (construct4th ℝ) = (construct4th ℚ).map (Rat.cast : ℚ → ℝ) := by simp [construct4th]
  rw [e, dopri5_rows_cast, stageWeights_cast, dot_cast]
  have := (Rat.cast_le (K := ℝ)).2 (h τ hτ)
  push_cast at this
  exact this

theorem last_stage_weights : ∀ τ : RTree, τ.order ≤ 4 →
    dot [0, 0, 0, 0, 0, 0, 1] (τ.stageWeights (butcherRows (constructDopri5 ℝ))) - τ.order * (1 / (τ.density : ℝ)) = 0 := by
  have h : ∀ τ : RTree, τ.order ≤ 4 →
      dot [0, 0, 0, 0, 0, 0, 1] (τ.stageWeights (butcherRows (constructDopri5 ℚ))) - τ.order * (1 / (τ.density : ℚ)) = 0 :=
    forall_trees 3 _ (by decide +kernel)
  intro τ hτ
  have e : ([0, 0, 0, 0, 0, 0, 1] : List ℝ) = ([0, 0, 0, 0, 0, 0, 1] : List ℚ).map (Rat.cast : ℚ → ℝ) := by simp
  rw [e, dopri5_rows_cast, stageWeights_cast, dot_cast]
  have := congrArg (Rat.cast : ℚ → ℝ) (h τ hτ)
  push_cast at this
  exact this

theorem first_stage_weights : ∀ τ : RTree, τ.order ≤ 4 →
    dot [1] (τ.stageWeights (butcherRows (constructDopri5 ℝ))) - (if τ.order = 1 then 1 else 0) * (1 / (τ.density : ℝ)) = 0 := by
  have h : ∀ τ : RTree, τ.order ≤ 4 →
      dot [1] (τ.stageWeights (butcherRows (constructDopri5 ℚ))) - (if τ.order = 1 then 1 else 0) * (1 / (τ.density : ℚ)) = 0 :=
    forall_trees 3 _ (by decide +kernel)
  intro τ hτ
  have e : ([1] : List ℝ) = ([1] : List ℚ).map (Rat.cast : ℚ → ℝ) := by simp
  rw [e, dopri5_rows_cast, stageWeights_cast, dot_cast]
  have := congrArg (Rat.cast : ℚ → ℝ) (h τ hτ)
  split_ifs at this ⊢ <;> push_cast at this <;> exact this

/-- **C87.** Dense output of one `dopri5` step along a solution of a four times continuously differentiable field: at every
point of the step the interpolated state is within `C h^5` of the solution, up to the rounding of the interpolation weights
(a relative `1e-16`). -/
theorem C87_step (f : ℝ → V → V) (hf : ContDiff ℝ 4 (fun p : ℝ × V => f p.1 p.2)) (y : ℝ → V) (t0 T : ℝ)
    (hy : ∀ t ∈ Icc t0 T, HasDerivWithinAt y (f t (y t)) (Icc t0 T) t) (args : A) :
    ∃ C D δ, 0 < δ ∧ ∀ t h s, t0 ≤ t → 0 < h → h ≤ δ → t + h ≤ T → 0 ≤ s → s ≤ h →
      ∃ k x' e st, dopri5Step (m := Id) (pureField f) (y t) t h none args = .four k x' e st ∧
        ‖fourthOrderDense (construct4th ℝ) t h (f t (y t)) k (y t) x' st (t + s) - y (t + s)‖ ≤
          C * h ^ 5 + 1 / 10 ^ 16 * (D * h) := by
  have hyc : ContinuousOn y (Icc t0 T) := fun t ht => (hy t ht).continuousWithinAt
  have hf' : ContDiff ℝ ((3 : ℕ) + 1) (fun p : ℝ × V => f p.1 p.2) := by
    convert hf using 1; norm_num
  obtain ⟨C1, D1, δ1, hC1, hD1, hδ1, H1⟩ := rkT_weights hf' hyc _ dopri5_explicit [1] (fun k => if k = 1 then 1 else 0) 0
    (fun τ hτ => by rw [first_stage_weights τ hτ, abs_zero])
  obtain ⟨C2, D2, δ2, hC2, hD2, hδ2, H2⟩ := rkT_weights hf' hyc _ dopri5_explicit [0, 0, 0, 0, 0, 0, 1] (fun k => k) 0
    (fun τ hτ => by rw [last_stage_weights τ hτ, abs_zero])
  obtain ⟨C3, D3, δ3, hC3, hD3, hδ3, H3⟩ := rkT_weights hf' hyc _ dopri5_explicit (constructDopri5 ℝ).bsol (fun _ => 1) 0
    (fun τ hτ => by
      have := C03_dopri5_order_conditions τ (by omega)
      rw [one_mul, dopri5_rows_cast, dopri5_bsol_cast, ← orderDefect, orderDefect_cast, this, Rat.cast_zero, abs_zero])
  obtain ⟨C4, D4, δ4, hC4, hD4, hδ4, H4⟩ := rkT_weights hf' hyc _ dopri5_explicit (construct4th ℝ) (fun k => (1 / 2) ^ k)
    (1 / 10 ^ 16) midpoint_weights
  obtain ⟨C5, δ5, hC5, hδ5, H5⟩ := flowT_coef hf' hy
  refine ⟨64 * (C1 + C2 + C3 + C4) + C5, 64 * D4, min (min (min δ1 δ2) (min δ3 δ4)) δ5, by positivity, ?_⟩
  intro t h s ht h0 hδ hT hs0 hsh
  simp only [le_min_iff] at hδ
  obtain ⟨⟨⟨a1, a2⟩, a3, a4⟩, a5⟩ := hδ
  obtain ⟨k, x', e, st, hst, rfl, hf0, hk, hx', hm⟩ := dopri5_stages f (y t) t h args
  refine ⟨k, x', e, _, hst, ?_⟩
  rw [dopri5_nodes] at hf0 hk hx' hm ⊢
  have b1 := H1 t h ht h0.le a1 hT
  have b2 := H2 t h ht h0.le a2 hT
  have b3 := H3 t h ht h0.le a3 hT
  have b4 := H4 t h ht h0.le a4 hT
  have b5 := H5 t s ht hs0 (hsh.trans a5) (by linarith)
  generalize rkStagesT f (y t) t h ((butcherRows (constructDopri5 ℝ)).map fun row => (row.sum, row)) [] = st at *
  set c : ℕ → V := fun k => if k = 0 then y t else solCoefT f t (y t) k with hc
  have hz : solCoefT f t (y t) 0 = 0 := by
    simp only [solCoefT, solCoef]
    convert Prod.snd_zero
    rw [Finset.sum_eq_zero]
    intro τ hτ
    have h1 := τ.order_pos
    have h2 := (Finset.mem_filter.1 hτ).2
    omega
  simp only [Finset.sum_range_succ, Finset.sum_range_zero, hz, smul_zero, add_zero, zero_add, Nat.reduceAdd] at b1 b2 b3 b4 b5
  have hq : interpEvaluate (fourthOrderFit h (quarticDeriv c (0 : ℝ)) (quarticDeriv c h) (quartic c (0 : ℝ)) (quartic c h)
      (quartic c (h / 2))) 0 h s = quartic c s := by
    have := C31_reproduces_quartics c 0 h s h0.ne
    rwa [sub_zero, zero_add] at this
  rw [fourthOrderDense, interp_shift]
  have e1 : ‖h • (f t (y t) - quarticDeriv c (0 : ℝ))‖ ≤ C1 * h ^ 5 := by
    rw [hf0]
    refine le_trans (le_of_eq ?_) (b1.trans (le_of_eq (by ring)))
    congr 1
    simp [quarticDeriv, hc, smul_sub]
  have e2 : ‖h • (k - quarticDeriv c h)‖ ≤ C2 * h ^ 5 := by
    rw [hk]
    refine le_trans (le_of_eq ?_) (b2.trans (le_of_eq (by ring)))
    congr 1
    simp only [quarticDeriv, hc, smul_sub]
    norm_num
    module
  have e3 : ‖x' - quartic c h‖ ≤ C3 * h ^ 5 := by
    rw [hx']
    refine le_trans (le_of_eq ?_) (b3.trans (le_of_eq (by ring)))
    congr 1
    simp only [quartic, hc]
    norm_num
    module
  have e4 : ‖interpMid (construct4th ℝ) (y t) h st - quartic c (h / 2)‖ ≤ C4 * h ^ 5 + 1 / 10 ^ 16 * (D4 * h) := by
    rw [hm]
    refine le_trans (le_of_eq ?_) b4
    congr 1
    simp only [quartic, hc]
    norm_num
    module
  have e0 : y t - quartic c (0 : ℝ) = 0 := by simp [quartic, hc]
  have e5 : ‖quartic c s - y (t + s)‖ ≤ C5 * h ^ 5 := by
    rw [norm_sub_rev]
    refine le_trans (le_of_eq ?_) (b5.trans (mul_le_mul_of_nonneg_left (pow_le_pow_left₀ hs0 hsh 5) hC5))
    congr 1
    simp only [quartic, hc]
    norm_num
    module
  have key := interp_bound h (f t (y t) - quarticDeriv c (0 : ℝ)) (k - quarticDeriv c h) (y t - quartic c (0 : ℝ)) (x' - quartic c h)
    (interpMid (construct4th ℝ) (y t) h st - quartic c (h / 2)) h0 hs0 hsh
  rw [← interp_linear, hq, e0, norm_zero] at key
  calc _ = ‖(interpEvaluate (fourthOrderFit h (f t (y t)) k (y t) x' (interpMid (construct4th ℝ) (y t) h st)) 0 h s -
        quartic c s) + (quartic c s - y (t + s))‖ := by rw [sub_add_sub_cancel]
    _ ≤ 64 * (C1 * h ^ 5 + C2 * h ^ 5 + 0 + C3 * h ^ 5 + (C4 * h ^ 5 + 1 / 10 ^ 16 * (D4 * h))) + C5 * h ^ 5 :=
        (norm_add_le _ _).trans (add_le_add (key.trans (by gcongr)) e5)
    _ = _ := by ring

/-- The dense output of a step is Lipschitz in the state at the beginning of the step, if the stages are. -/
theorem dense_lipschitz {f : ℝ → V → V} {Λ δ : ℝ} (hΛ : 0 ≤ Λ) (hδ : 0 ≤ δ) (args : A) :
    ∃ M, 0 ≤ M ∧ ∀ t h s x z k x' e st k' z' e' st', 0 < h → h ≤ δ → 0 ≤ s → s ≤ h →
      List.Forall₂ (fun k k' => ‖k - k'‖ ≤ Λ * ‖x - z‖)
        (rkStagesT f x t h ((0 :: (constructDopri5 ℝ).c).zip (butcherRows (constructDopri5 ℝ))) [])
        (rkStagesT f z t h ((0 :: (constructDopri5 ℝ).c).zip (butcherRows (constructDopri5 ℝ))) []) →
      dopri5Step (m := Id) (pureField f) x t h none args = .four k x' e st →
      dopri5Step (m := Id) (pureField f) z t h none args = .four k' z' e' st' →
      ‖fourthOrderDense (construct4th ℝ) t h (f t x) k x x' st (t + s) -
        fourthOrderDense (construct4th ℝ) t h (f t z) k' z z' st' (t + s)‖ ≤ M * ‖x - z‖ := by
  set S := ((constructDopri5 ℝ).bsol.map abs).sum with hS
  set S' := ((construct4th ℝ).map abs).sum with hS'
  have hS0 : 0 ≤ S := List.sum_nonneg (by simp +contextual)
  have hS0' : 0 ≤ S' := List.sum_nonneg (by simp +contextual)
  refine ⟨64 * (δ * Λ + δ * Λ + 1 + (1 + δ * (S * Λ)) + (1 + δ * (S' * Λ))), by positivity, ?_⟩
  intro t h s x z k x' e st k' z' e' st' h0 hhδ hs0 hsh hst H H'
  obtain ⟨_, _, _, _, g, g1, g2, g3, g4, g5⟩ := dopri5_stages f x t h args
  obtain ⟨_, _, _, _, g', g1', g2', g3', g4', g5'⟩ := dopri5_stages f z t h args
  rw [H, StepOut.four.injEq] at g
  rw [H', StepOut.four.injEq] at g'
  obtain ⟨rfl, rfl, rfl, rfl⟩ := g
  obtain ⟨rfl, rfl, rfl, rfl⟩ := g'
  rw [← g1, ← g1'] at hst
  have hd : 0 ≤ Λ * ‖x - z‖ := by positivity
  have c1 := comb_sub_le [1] hd hst
  have c2 := comb_sub_le [0, 0, 0, 0, 0, 0, 1] hd hst
  have c3 := comb_sub_le (constructDopri5 ℝ).bsol hd hst
  have c4 := comb_sub_le (construct4th ℝ) hd hst
  rw [← g2, ← g2'] at c1
  rw [← g3, ← g3'] at c2
  rw [fourthOrderDense, fourthOrderDense, interp_shift, interp_shift, interp_linear]
  refine (interp_bound h _ _ _ _ _ h0 hs0 hsh).trans ?_
  rw [g5, g5', g4, g4']
  have hsub : ∀ u u' : V, x + h • u - (z + h • u') = (x - z) + h • (u - u') := by
    intro u u'; rw [smul_sub]; abel
  have d1 : ‖h • (f t x - f t z)‖ ≤ δ * Λ * ‖x - z‖ := by
    rw [norm_smul, Real.norm_of_nonneg h0.le, mul_assoc]
    refine mul_le_mul hhδ (c1.trans (by simp)) (norm_nonneg _) hδ
  have d2 : ‖h • (k - k')‖ ≤ δ * Λ * ‖x - z‖ := by
    rw [norm_smul, Real.norm_of_nonneg h0.le, mul_assoc]
    refine mul_le_mul hhδ (c2.trans (by simp)) (norm_nonneg _) hδ
  have d3 : ∀ (u u' : V) (σ : ℝ), ‖u - u'‖ ≤ σ * (Λ * ‖x - z‖) →
      ‖x + h • u - (z + h • u')‖ ≤ (1 + δ * (σ * Λ)) * ‖x - z‖ := by
    intro u u' σ hu
    rw [hsub]
    refine (norm_add_le _ _).trans ?_
    rw [norm_smul, Real.norm_of_nonneg h0.le]
    have : h * ‖u - u'‖ ≤ δ * (σ * (Λ * ‖x - z‖)) := mul_le_mul hhδ hu (norm_nonneg _) hδ
    linarith
  have d4 := d3 _ _ _ c3
  have d5 := d3 _ _ _ c4
  calc _ ≤ 64 * (δ * Λ * ‖x - z‖ + δ * Λ * ‖x - z‖ + ‖x - z‖ + (1 + δ * (S * Λ)) * ‖x - z‖ +
        (1 + δ * (S' * Λ)) * ‖x - z‖) := by gcongr
    _ = _ := by ring

end step

variable {ι A : Type} [Fintype ι] {args : A}

/-- A chain of accepted steps as an accepted run. -/
theorem chain_acceptedRun {solver : Solver (Except PyErr) ℝ (ι → ℝ) A} {f : ℝ → (ι → ℝ) → ι → ℝ} {sel : Finset ι}
    {atol rtol t0 T : ℝ} {x0 : ι → ℝ} {nodes : List (Point ι)} (hc : nodes.IsChain (AcceptedStep solver args f sel atol rtol))
    (hh : nodes.head? = some (t0, x0)) {p : Point ι} (hl : nodes.getLast? = some p) (hp : t0 < p.1) (hT : p.1 ≤ T) :
    AcceptedRun solver args f sel atol rtol t0 T x0 (nodes.map Prod.fst) (nodes.map Prod.snd) := by
  have hsort : (nodes.map Prod.fst).Pairwise (· < ·) := by
    rw [← List.isChain_iff_pairwise, List.isChain_map]
    exact hc.imp fun a b h => h.1
  obtain ⟨a, l, rfl⟩ : ∃ a l, nodes = a :: l := by
    cases nodes with
    | nil => simp at hh
    | cons a l => exact ⟨a, l, rfl⟩
  simp only [List.head?_cons, Option.some.injEq] at hh
  subst hh
  refine ⟨hsort, ?_, rfl, rfl, by simp, ?_, ?_⟩
  · cases l with
    | nil => simp at hl; rw [← hl] at hp; exact absurd hp (lt_irrefl _)
    | cons b l => simp
  · have : (((t0, x0) :: l).map Prod.fst).getLast? = some p.1 := by rw [List.getLast?_map, hl]; rfl
    exact fun t ht => (le_of_sorted_getLast hsort this t ht).trans hT
  · intro i t z t' z' h1 h2 h3 h4
    rw [List.getElem?_map, Option.map_eq_some_iff] at h1 h2 h3 h4
    obtain ⟨u, hu, rfl⟩ := h1
    obtain ⟨u', hu', rfl⟩ := h2
    obtain ⟨v, hv, rfl⟩ := h3
    obtain ⟨v', hv', rfl⟩ := h4
    rw [hu, Option.some.injEq] at hu'
    rw [hv, Option.some.injEq] at hv'
    subst hu' hv'
    rw [List.isChain_iff_getElem] at hc
    obtain ⟨i1, rfl⟩ := List.getElem?_eq_some_iff.1 hu
    obtain ⟨i2, rfl⟩ := List.getElem?_eq_some_iff.1 hv
    exact Relation.ReflTransGen.single (hc i i2)

/-- **C87.** `odeint` with `dopri5` and the fourth order interpolator, on a field that is five times continuously
differentiable (no Lipschitz condition): there is a sequence of accepted steps, and if these are at most `h` long, every
returned state, interpolated or not, is within `C h^5` of the exact solution (up to the rounding of the interpolation
weights). `C`, `D`, `δ` do not depend on the tolerances or the requested times. -/
theorem C87_run (f : ℝ → (ι → ℝ) → ι → ℝ) (hf : ContDiff ℝ 5 (fun p : ℝ × (ι → ℝ) => f p.1 p.2))
    (y : ℝ → ι → ℝ) (t0 T : ℝ) (hy : ∀ t ∈ Icc t0 T, HasDerivWithinAt y (f t (y t)) (Icc t0 T) t) (args : A) :
    ∃ C D δ, 0 < δ ∧ ∀ (t1 : ℝ) (rest : List ℝ) (h atol rtol : ℝ) (saveAt : List ℝ) (sel : Finset ι) (fuel : ℕ)
      (ts : List ℝ) (xs : List (ι → ℝ)), h ≤ δ → Increasing (t0 :: t1 :: rest) → (∀ t ∈ t0 :: t1 :: rest, t ≤ T) →
      odeint fuel (pureField f) (y t0) (t0 :: t1 :: rest) (dopri5Solver (Except PyErr) ℝ (ι → ℝ) A) atol rtol true false saveAt
        args sel = .ok (some (ts, xs)) →
      ∃ nodes : List (Point ι),
        nodes.IsChain (AcceptedStep (dopri5Solver (Except PyErr) ℝ (ι → ℝ) A) args f sel atol rtol) ∧
        nodes.head? = some (t0, y t0) ∧ nodes.getLast? = (ts.zip xs).getLast? ∧
        (GapsAtMost h (nodes.map Prod.fst) → ∀ (k : ℕ) (t : ℝ) (x : ι → ℝ), ts[k]? = some t → xs[k]? = some x →
          ‖x - y t‖ ≤ C * h ^ 5 + 1 / 10 ^ 16 * (D * h)) := by
  obtain ⟨C, δ, hδ, H⟩ := dopri5_run_error f hf y t0 T hy args
  obtain ⟨C', D, δ', hδ', H'⟩ := C87_step f (hf.of_le (by norm_num)) y t0 T hy args
  obtain ⟨Λ, δ₁, hΛ, hδ₁, hlip⟩ := rk_stages_lipschitz_near (n := 5) (by norm_num) (by exact_mod_cast hf) hy
    ((0 :: (constructDopri5 ℝ).c).zip (butcherRows (constructDopri5 ℝ)))
  obtain ⟨M, hM, HM⟩ := dense_lipschitz (f := f) (args := args) hΛ hδ'.le
  obtain ⟨δ₂, hδ₂, hsm⟩ := exists_pow_small (abs_nonneg C)
  refine ⟨|C| + (M * |C| + |C'|), |D|, min (min δ δ') (min δ₁ δ₂), lt_min (lt_min hδ hδ') (lt_min hδ₁ hδ₂), ?_⟩
  intro t1 rest h atol rtol saveAt sel fuel ts xs hhδ0 hinc hT hrun
  have hhδ := hhδ0.trans (min_le_left _ _)
  have hhδ1 := (hhδ0.trans (min_le_right _ _)).trans (min_le_left _ _)
  have hhδ2 := (hhδ0.trans (min_le_right _ _)).trans (min_le_right _ _)
  obtain ⟨rfl, hlen, nodes, hc, hh, hl, hout⟩ := C32_outputs (dopri5_fsalSolver args) rfl f (y t0) t0 t1 rest hinc atol rtol
    saveAt sel fuel ts xs hrun
  refine ⟨nodes, hc, hh, hl, fun hgap k t x ht hx => ?_⟩
  obtain ⟨p, hp, hpt⟩ : ∃ p, nodes.getLast? = some p ∧ p.1 ∈ t1 :: rest := by
    have hne : ((t0 :: t1 :: rest).zip xs) ≠ [] := by
      intro h0
      have := congrArg List.length h0
      simp [hlen] at this
    refine ⟨_, hl.trans (List.getLast?_eq_some_getLast hne), ?_⟩
    match xs, hlen with
    | [], hlen => simp at hlen
    | [_], hlen => simp at hlen
    | x0 :: x1 :: xs, hlen =>
      simp only [List.zip_cons_cons, List.getLast_cons_cons]
      have := List.getLast_mem (l := (t1, x1) :: rest.zip xs) (by simp)
      exact (List.of_mem_zip (l₁ := t1 :: rest) (l₂ := x1 :: xs) this).1
  have hacc := chain_acceptedRun hc hh hp ((List.pairwise_cons.1 hinc).1 _ hpt) (hT _ (List.mem_cons_of_mem _ hpt))
  have h0 := hacc.gap_nonneg hgap
  have hnode : ∀ q ∈ nodes, ‖q.2 - y q.1‖ ≤ |C| * h ^ 5 ∧ t0 ≤ q.1 ∧ q.1 ≤ T := by
    intro q hq
    obtain ⟨i, hi⟩ := List.getElem?_of_mem hq
    have := H h atol rtol sel _ _ (hhδ.trans (min_le_left _ _)) hacc hgap i q.1 q.2 (by rw [List.getElem?_map, hi]; rfl)
      (by rw [List.getElem?_map, hi]; rfl)
    refine ⟨this.trans (mul_le_mul_of_nonneg_right (le_abs_self C) (by positivity)), ?_,
      hacc.2.2.2.2.2.1 _ (List.mem_map_of_mem hq)⟩
    have hm : q.1 ∈ nodes.map Prod.fst := List.mem_map_of_mem hq
    obtain ⟨hs, -, hz, -⟩ := hacc
    cases hn : nodes.map Prod.fst with
    | nil => rw [hn] at hm; cases hm
    | cons a l =>
      rw [hn] at hm hs hz
      simp only [List.getElem?_cons_zero, Option.some.injEq] at hz
      rw [← hz]
      rcases List.mem_cons.1 hm with h | h
      · exact h.ge
      · exact ((List.pairwise_cons.1 hs).1 _ h).le
  have hmem : (t, x) ∈ (t0 :: t1 :: rest).zip xs := by
    refine List.mem_of_getElem? (i := k) ?_
    rw [List.getElem?_zip_eq_some]
    exact ⟨ht, hx⟩
  have hbase : |C| * h ^ 5 ≤ (|C| + (M * |C| + |C'|)) * h ^ 5 + 1 / 10 ^ 16 * (|D| * h) := by
    have e1 : 0 ≤ (M * |C| + |C'|) * h ^ 5 := by positivity
    have e2 : 0 ≤ 1 / 10 ^ 16 * (|D| * h) := by positivity
    linarith [add_mul |C| (M * |C| + |C'|) (h ^ 5)]
  rcases hout _ hmem with hn | ⟨dense, hd, a, b, hab, kk, e, st, hta, htb, hstep, hx'⟩
  · exact (hnode _ hn).1.trans hbase
  rw [Option.some.injEq] at hd
  subst hd
  simp only at hta htb hx'
  obtain ⟨l, r, hlr⟩ := hab
  have hgapab : b.1 - a.1 ≤ h := by
    refine hgap l.length a.1 b.1 ?_ ?_ <;> rw [← hlr] <;> simp
  have ha := hnode a (by rw [← hlr]; simp)
  have hb := hnode b (by rw [← hlr]; simp)
  have hpos : 0 < b.1 - a.1 := by linarith
  have hle : b.1 - a.1 ≤ δ' := hgapab.trans (hhδ.trans (min_le_right _ _))
  obtain ⟨k', z', e', st', hz, herr⟩ := H' a.1 (b.1 - a.1) (t - a.1) ha.2.1 hpos hle (by linarith [hb.2.2]) (by linarith)
    (by linarith)
  have hst : dopri5Step (m := Id) (pureField f) a.2 a.1 (b.1 - a.1) none args = .four kk b.2 e st := by
    obtain ⟨k2, x2, e2, st2, h1, h2⟩ := rk7_four (constructDopri5 ℝ) f a.2 a.1 (b.1 - a.1) none args
    have h5 : (Except.ok (.four k2 x2 e2 st2) : Except PyErr (StepOut (ι → ℝ))) = .ok (.four kk b.2 e st) := by
      rw [← h1]; exact hstep
    rw [Except.ok.injEq] at h5
    rw [← h5]
    exact h2
  have hlipd := HM a.1 (b.1 - a.1) (t - a.1) a.2 (y a.1) kk b.2 e st k' z' e' st' hpos hle (by linarith) (by linarith)
    (hlip a.1 (b.1 - a.1) a.2 ha.2.1 hpos.le (hgapab.trans hhδ1) (by linarith [hb.2.2]) (by linarith [ha.1, hsm h h0 hhδ2])) hst hz
  rw [add_sub_cancel] at herr hlipd
  rw [hx']
  calc _ = ‖(fourthOrderDense (construct4th ℝ) a.1 (b.1 - a.1) (f a.1 a.2) kk a.2 b.2 st t -
          fourthOrderDense (construct4th ℝ) a.1 (b.1 - a.1) (f a.1 (y a.1)) k' (y a.1) z' st' t) +
        (fourthOrderDense (construct4th ℝ) a.1 (b.1 - a.1) (f a.1 (y a.1)) k' (y a.1) z' st' t - y t)‖ := by
        rw [sub_add_sub_cancel]
    _ ≤ M * (|C| * h ^ 5) + (|C'| * h ^ 5 + 1 / 10 ^ 16 * (|D| * h)) := by
        refine (norm_add_le _ _).trans (add_le_add (hlipd.trans (mul_le_mul_of_nonneg_left ha.1 hM)) (herr.trans ?_))
        have e1 : C' * (b.1 - a.1) ^ 5 ≤ |C'| * h ^ 5 := by
          refine mul_le_mul (le_abs_self _) (pow_le_pow_left₀ hpos.le hgapab 5) (by positivity) (abs_nonneg _)
        have e2 : D * (b.1 - a.1) ≤ |D| * h := mul_le_mul (le_abs_self _) hgapab hpos.le (abs_nonneg _)
        linarith
    _ ≤ _ := by
        have e3 : 0 ≤ |C| * h ^ 5 := by positivity
        linarith [add_mul |C| (M * |C| + |C'|) (h ^ 5), add_mul (M * |C|) |C'| (h ^ 5), mul_assoc M |C| (h ^ 5)]

/-- C87 applied to `x' = -x + sin t + cos t` with the solution `sin t`: the integration returns and, if its accepted steps are
at most `h` long, the requested values are accurate to fifth order. -/
example : ∃ C D δ, 0 < δ ∧ ∀ (t1 : ℝ) (rest : List ℝ) (h atol rtol : ℝ) (saveAt : List ℝ) (sel : Finset (Fin 1)), h ≤ δ →
    Increasing (0 :: t1 :: rest) → (∀ t ∈ 0 :: t1 :: rest, t ≤ 3) → 0 < atol → 0 ≤ rtol →
    ∃ fuel ts xs, odeint fuel (pureField fun t x => -x + fun _ => Real.sin t + Real.cos t) (fun _ => Real.sin 0) (0 :: t1 :: rest)
        (dopri5Solver (Except PyErr) ℝ (Fin 1 → ℝ) Unit) atol rtol true false saveAt () sel = .ok (some (ts, xs)) ∧
      ∃ nodes : List (Point (Fin 1)), nodes.head? = some (0, fun _ => Real.sin 0) ∧
        nodes.getLast? = (ts.zip xs).getLast? ∧
        (GapsAtMost h (nodes.map Prod.fst) → ∀ (k : ℕ) (t : ℝ) (x : Fin 1 → ℝ), ts[k]? = some t → xs[k]? = some x →
          ‖x - fun _ => Real.sin t‖ ≤ C * h ^ 5 + 1 / 10 ^ 16 * (D * h)) := by
  obtain ⟨C, D, δ, hδ, H⟩ := C87_run (fun t (x : Fin 1 → ℝ) => -x + fun _ => Real.sin t + Real.cos t)
    (by
      refine contDiff_snd.neg.add (contDiff_pi.2 fun _ => ?_)
      exact (Real.contDiff_sin.comp contDiff_fst).add (Real.contDiff_cos.comp contDiff_fst))
    (fun t _ => Real.sin t) 0 3
    (by
      intro t _
      refine hasDerivWithinAt_pi.2 fun i => ?_
      have := (Real.hasDerivAt_sin t).hasDerivWithinAt (s := Icc 0 3)
      simpa using this) ()
  refine ⟨C, D, δ, hδ, ?_⟩
  intro t1 rest h atol rtol saveAt sel hh hinc hT ha hr
  obtain ⟨fuel, ts, xs, hrun⟩ := C27_terminates_dopri5_linear () (fun t (x : Fin 1 → ℝ) => -x + fun _ => Real.sin t + Real.cos t)
    2 1 (by norm_num) (by norm_num)
    (fun t x => by
      refine (norm_add_le _ _).trans ?_
      rw [norm_neg, one_mul, add_comm]
      refine add_le_add ((pi_norm_le_iff_of_nonneg (by norm_num)).2 fun _ => ?_) le_rfl
      rw [Real.norm_eq_abs]
      exact (abs_add_le _ _).trans (by linarith [Real.abs_sin_le_one t, Real.abs_cos_le_one t]))
    (fun _ => Real.sin 0) 0 t1 rest hinc atol rtol ha hr true false saveAt sel
  obtain ⟨nodes, -, h2, h3, h4⟩ := H t1 rest h atol rtol saveAt sel fuel ts xs hh hinc hT hrun
  exact ⟨fuel, ts, xs, hrun, nodes, h2, h3, h4⟩

end Torchdyn
