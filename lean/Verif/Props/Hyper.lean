import Verif.Model.Hyper
import Verif.Props.Order

/-!
Property C98: accuracy of whole integrations with hypersolvers.
-/

set_option linter.unusedSectionVars false
set_option linter.unusedSimpArgs false

namespace Torchdyn

open Set Spec

section bound

variable {V : Type} [NormedAddCommGroup V] [NormedSpace ℝ V] {A : Type}

/-- With the hypernet `g`, the base step `base` of order `p` and the solution `y`: if on all steps of the grid the hypernet
is within `δ` of the scaled residual `(y(t') - base(y(t), t, t' - t)) / (t' - t)^(p+1)`, then the states of the integration
differ from `y` by at most `δ h^p (T - t0) exp(Λ (T - t0))`, where `Λ` depends on the field and the hypernet only. -/
def HyperAccurate (p : ℕ) (solver : Solver (Except PyErr) ℝ V A) (base : V → ℝ → ℝ → V) (args : A) (f g : ℝ → V → V) :
    Prop :=
  ∃ Λ, 0 ≤ Λ ∧ ∀ (y : ℝ → V) (t0 T t1 : ℝ) (rest : List ℝ) (h δ : ℝ), h ≤ 1 → 0 ≤ δ →
    (t0 :: t1 :: rest).Pairwise (· < ·) → (∀ t ∈ t0 :: t1 :: rest, t ≤ T) →
    (∀ (k : ℕ) (t t' : ℝ), (t0 :: t1 :: rest)[k]? = some t → (t0 :: t1 :: rest)[k + 1]? = some t' → t' - t ≤ h ∧
      ‖g t (y t) - ((t' - t) ^ (p + 1))⁻¹ • (y t' - base (y t) t (t' - t))‖ ≤ δ) →
    ∃ φ sol, SteppedBy solver f args φ ∧ IsTrajectory φ (y t0) (t0 :: t1 :: rest) sol ∧
      (Separated (t0 :: t1 :: rest) →
        odeintFixed (pureField f) (y t0) (t0 :: t1 :: rest) solver [] args = .ok (t0 :: t1 :: rest, sol)) ∧
      ∀ (k : ℕ) (t : ℝ) (x : V), (t0 :: t1 :: rest)[k]? = some t → sol[k]? = some x →
        ‖x - y t‖ ≤ δ * h ^ p * (T - t0) * Real.exp (Λ * (T - t0))

/-- Steps of an explicit Runge-Kutta method are Lipschitz in the state. -/
theorem rk_stable {f : ℝ → V → V} {L H : ℝ} (hL : 0 ≤ L) (hH : 0 ≤ H) (hLip : ∀ t x x', ‖f t x - f t x'‖ ≤ L * ‖x - x'‖)
    {φ : V → ℝ → ℝ → V} (rows : List (ℝ × List ℝ)) (b : List ℝ)
    (hφ : ∀ x t h, φ x t h = x + h • comb b (rkStagesT f x t h rows [])) :
    ∃ Λ, 0 ≤ Λ ∧ ∀ t h x x', 0 ≤ h → h ≤ H → ‖φ x t h - φ x' t h‖ ≤ (1 + Λ * h) * ‖x - x'‖ := by
  obtain ⟨Λ, hΛ, hlip⟩ := rkStagesT_lipschitz hL hH hLip rows 0 le_rfl
  set S := (b.map abs).sum with hS
  have hs0 : 0 ≤ S := List.sum_nonneg (by simp +contextual)
  refine ⟨S * Λ, by positivity, fun t h z z' h0 hhH => ?_⟩
  rw [hφ, hφ]
  have hc := comb_sub_le b (by positivity) (hlip t h z z' [] [] h0 hhH List.Forall₂.nil)
  have e : ∀ u u' : V, z + h • u - (z' + h • u') = (z - z') + h • (u - u') := by
    intro u u'; rw [smul_sub]; abel
  rw [e]
  refine (norm_add_le _ _).trans ?_
  rw [norm_smul, Real.norm_of_nonneg h0, add_mul, one_mul]
  refine add_le_add le_rfl ?_
  calc h * _ ≤ h * (S * (Λ * ‖z - z'‖)) := mul_le_mul_of_nonneg_left hc h0
    _ = _ := by ring

theorem hyper_global {p : ℕ} {solver : Solver (Except PyErr) ℝ V A} {base : V → ℝ → ℝ → V} {args : A} {f g : ℝ → V → V}
    (hs : SteppedBy solver f args fun x t dt => base x t dt + dt ^ (p + 1) • g t x) {Lg : ℝ} (hLg : 0 ≤ Lg)
    (hg : ∀ t x x', ‖g t x - g t x'‖ ≤ Lg * ‖x - x'‖)
    (hb : ∃ Λ, 0 ≤ Λ ∧ ∀ t h x x', 0 ≤ h → h ≤ 1 → ‖base x t h - base x' t h‖ ≤ (1 + Λ * h) * ‖x - x'‖) :
    HyperAccurate p solver base args f g := by
  obtain ⟨Λ, hΛ, hb⟩ := hb
  refine ⟨Λ + Lg, by positivity, ?_⟩
  intro y t0 T t1 rest h δ hh1 hδ hmono hT hgap
  have h01 : t0 < t1 := (List.pairwise_cons.1 hmono).1 t1 (by simp)
  have htraj := gridStates_isTrajectory (fun x t dt => base x t dt + dt ^ (p + 1) • g t x) (y t0) (t0 :: t1 :: rest) (by simp)
  refine ⟨_, _, hs, htraj, fun hsep => ?_, ?_⟩
  · obtain ⟨sol, hrun, ht⟩ := C12_trajectory hs (y t0) t0 t1 rest h01.le hsep
    rw [hrun, ht.eq_gridStates (by simp)]
  have hh : 0 ≤ h := (sub_nonneg.2 h01.le).trans (hgap 0 t0 t1 rfl rfl).1
  intro k t x hk hx
  have hlt : ∀ j a b', (t0 :: t1 :: rest)[j]? = some a → (t0 :: t1 :: rest)[j + 1]? = some b' → a < b' := by
    intro j a b' hja hjb
    obtain ⟨h1, rfl⟩ := List.getElem?_eq_some_iff.1 hja
    obtain ⟨h2, rfl⟩ := List.getElem?_eq_some_iff.1 hjb
    exact List.pairwise_iff_getElem.1 hmono j (j + 1) h1 h2 (by omega)
  have key := global_error_bound (L := Λ + Lg) (δ := δ * h ^ p) (T := T) (by positivity) (by positivity)
    (hmono.imp le_of_lt) hT ?_ ?_ htraj k t x hk hx
  · have ht0 : t0 ≤ t := by
      rcases List.mem_cons.1 (List.mem_of_getElem? hk) with rfl | hm
      · exact le_rfl
      · exact ((List.pairwise_cons.1 hmono).1 t hm).le
    have htT : t ≤ T := hT t (List.mem_of_getElem? hk)
    have h1 : Real.exp ((Λ + Lg) * (t - t0)) ≤ Real.exp ((Λ + Lg) * (T - t0)) :=
      Real.exp_le_exp.2 (mul_le_mul_of_nonneg_left (by linarith) (by positivity))
    have h2 : 0 ≤ t - t0 := by linarith
    have h3 : 0 ≤ T - t0 := by linarith
    refine key.trans ?_
    gcongr
  · intro a b' _ hab _ ⟨j, hja, hjb⟩ z z'
    have hgp := (hgap j a b' hja hjb).1
    have h0 : 0 ≤ b' - a := sub_nonneg.2 hab
    have e : base z a (b' - a) + (b' - a) ^ (p + 1) • g a z - (base z' a (b' - a) + (b' - a) ^ (p + 1) • g a z') =
        (base z a (b' - a) - base z' a (b' - a)) + (b' - a) ^ (p + 1) • (g a z - g a z') := by
      rw [smul_sub]; abel
    change ‖base z a (b' - a) + (b' - a) ^ (p + 1) • g a z - (base z' a (b' - a) + (b' - a) ^ (p + 1) • g a z')‖ ≤ _
    rw [e]
    refine (norm_add_le _ _).trans ?_
    rw [norm_smul, Real.norm_of_nonneg (by positivity)]
    have h1 := hb a (b' - a) z z' h0 (hgp.trans hh1)
    have h2 : (b' - a) ^ (p + 1) ≤ b' - a := by
      rw [pow_succ]
      exact mul_le_of_le_one_left h0 (pow_le_one₀ h0 (hgp.trans hh1))
    have h3 : (b' - a) ^ (p + 1) * ‖g a z - g a z'‖ ≤ (b' - a) * (Lg * ‖z - z'‖) :=
      mul_le_mul h2 (hg a z z') (norm_nonneg _) h0
    linarith
  · intro a b' _ _ _ ⟨j, hja, hjb⟩
    obtain ⟨hgp, hres⟩ := hgap j a b' hja hjb
    have h0 : 0 < b' - a := sub_pos.2 (hlt j a b' hja hjb)
    have hne : (b' - a) ^ (p + 1) ≠ 0 := (pow_pos h0 _).ne'
    have e : base (y a) a (b' - a) + (b' - a) ^ (p + 1) • g a (y a) - y b' =
        (b' - a) ^ (p + 1) • (g a (y a) - ((b' - a) ^ (p + 1))⁻¹ • (y b' - base (y a) a (b' - a))) := by
      rw [smul_sub, smul_smul, mul_inv_cancel₀ hne, one_smul]
      abel
    change ‖base (y a) a (b' - a) + (b' - a) ^ (p + 1) • g a (y a) - y b'‖ ≤ _
    rw [e, norm_smul, Real.norm_of_nonneg (by positivity)]
    calc (b' - a) ^ (p + 1) * _ ≤ (b' - a) ^ (p + 1) * δ := mul_le_mul_of_nonneg_left hres (by positivity)
      _ = δ * (b' - a) ^ p * (b' - a) := by rw [pow_succ]; ring
      _ ≤ δ * h ^ p * (b' - a) := by gcongr

theorem rk4_rkT (f : ℝ → V → V) (x : V) (t h : ℝ) :
    rk4Update f x t h = x + h • comb [1 / 6, 1 / 3, 1 / 3, 1 / 6]
      (rkStagesT f x t h [(0, []), (0, [1 / 2]), (1 / 2, [0, 1 / 2]), (1 / 2, [0, 0, 1])] []) := by
  simp only [rk4Update, rk4Step, firstStage, pureField, constructRk4, rkStagesT, comb, nth, nth2, pure, bind,
    List.getD_cons_zero, List.getD_cons_succ, List.nil_append, List.cons_append,
    smul_add, smul_smul, ← add_assoc, add_zero, smul_zero, zero_mul, zero_smul, mul_zero, StepOut.newState]

/-- **C98.** Accuracy of hypersolvers on whole integrations: for every field and hypernet that are Lipschitz in the state, if
the hypernet approximates the scaled residuals of the base solver along the exact solution within `δ`, the integration is
accurate to `δ h^p` up to a constant (`p = 1, 2, 4` for `HyperEuler`, `HyperMidpoint`, `HyperRungeKutta4`). -/
theorem C98_accuracy (f g : ℝ → V → V) {L Lg : ℝ} (hL : 0 ≤ L) (hLip : ∀ t x x', ‖f t x - f t x'‖ ≤ L * ‖x - x'‖)
    (hLg : 0 ≤ Lg) (hg : ∀ t x x', ‖g t x - g t x'‖ ≤ Lg * ‖x - x'‖) (args : A) :
    HyperAccurate 1 (hyperEulerSolver (Except PyErr) ℝ V A (pureField g)) (fun x t dt => x + dt • f t x) args f g ∧
    HyperAccurate 2 (hyperMidpointSolver (Except PyErr) ℝ V A (pureField g))
      (fun x t dt => x + dt • f (t + 1 / 2 * dt) (x + (1 / 2 * dt) • f t x)) args f g ∧
    HyperAccurate 4 (hyperRk4Solver (Except PyErr) ℝ V A (pureField g)) (rk4Update f) args f g := by
  refine ⟨hyper_global (fun _ _ _ => ⟨none, none, rfl⟩) hLg hg (rk_stable hL zero_le_one hLip [(0, [])] [1] ?_),
    hyper_global (fun _ _ _ => ⟨none, none, rfl⟩) hLg hg
      (rk_stable hL zero_le_one hLip [(0, []), (1 / 2, [1 / 2])] [0, 1] ?_),
    hyper_global (fun _ _ _ => ⟨none, none, rfl⟩) hLg hg (rk_stable hL zero_le_one hLip
      [(0, []), (0, [1 / 2]), (1 / 2, [0, 1 / 2]), (1 / 2, [0, 0, 1])] [1 / 6, 1 / 3, 1 / 3, 1 / 6] (rk4_rkT f))⟩
  · intro x t h
    simp [rkStagesT, comb]
  · intro x t h
    rw [← midpoint_rk f x t h ()]
    rfl

end bound

section order

variable {V : Type} [NormedAddCommGroup V] [NormedSpace ℝ V] {A : Type}

/-- Local error of the second-order Taylor step. -/
theorem taylor2_local {f : ℝ → V → V} (hf : ContDiff ℝ 2 (fun p : ℝ × V => f p.1 p.2)) {y : ℝ → V} {t0 T : ℝ}
    (hy : ∀ t ∈ Icc t0 T, HasDerivWithinAt y (f t (y t)) (Icc t0 T) t) :
    ∃ M, 0 ≤ M ∧ ∀ t t', t0 ≤ t → t ≤ t' → t' ≤ T →
      ‖y t' - (y t + (t' - t) • f t (y t)) -
        (t' - t) ^ 2 • ((1 / 2 : ℝ) • fderiv ℝ (fun p : ℝ × V => f p.1 p.2) (t, y t) (1, f t (y t)))‖ ≤ M * (t' - t) ^ 3 := by
  set F := fun p : ℝ × V => f p.1 p.2 with hF
  set H := fun p : ℝ × V => fderiv ℝ F p (1, F p) with hH
  have hHc : ContDiff ℝ 1 H := by
    have h1 : ContDiff ℝ 1 (fderiv ℝ F) := hf.fderiv_right (by norm_num)
    exact h1.clm_apply (contDiff_const.prodMk (hf.of_le (by norm_num)))
  have hgr : ∀ t ∈ Icc t0 T, HasDerivWithinAt (fun s => ((s, y s) : ℝ × V)) (1, f t (y t)) (Icc t0 T) t := fun t ht =>
    (hasDerivWithinAt_id t _).prodMk (hy t ht)
  have hu : ∀ t ∈ Icc t0 T, HasDerivWithinAt (fun s => f s (y s)) (H (t, y t)) (Icc t0 T) t := fun t ht =>
    HasFDerivAt.comp_hasDerivWithinAt (l := F) (f := fun s => (s, y s)) t
      ((hf.differentiable (by norm_num) (t, y t)).hasFDerivAt) (hgr t ht)
  have hv : ∀ t ∈ Icc t0 T, HasDerivWithinAt (fun s => H (s, y s)) (fderiv ℝ H (t, y t) (1, f t (y t))) (Icc t0 T) t :=
    fun t ht => HasFDerivAt.comp_hasDerivWithinAt (l := H) (f := fun s => (s, y s)) t
      ((hHc.differentiable (by norm_num) (t, y t)).hasFDerivAt) (hgr t ht)
  have hyc : ContinuousOn (fun s => ((s, y s) : ℝ × V)) (Icc t0 T) := fun t ht => (hgr t ht).continuousWithinAt
  have hc : ContinuousOn (fun t => fderiv ℝ H (t, y t) (1, f t (y t))) (Icc t0 T) :=
    ((hHc.continuous_fderiv (by norm_num)).comp_continuousOn hyc).clm_apply
      (continuousOn_const.prodMk (hf.continuous.comp_continuousOn hyc))
  obtain ⟨M, hM⟩ := isCompact_Icc.exists_bound_of_continuousOn hc
  refine ⟨max M 0, le_max_right _ _, fun t t' ht htt hT => ?_⟩
  have hsub : Icc t t' ⊆ Icc t0 T := Icc_subset_Icc ht hT
  have hM' : ∀ s ∈ Icc t t', ‖fderiv ℝ H (s, y s) (1, f s (y s))‖ ≤ max M 0 := fun s hs =>
    (hM s (hsub hs)).trans (le_max_left _ _)
  have ht' : t ∈ Icc t t' := ⟨le_rfl, htt⟩
  have hM0 : 0 ≤ max M 0 := le_max_right _ _
  have s1 : ∀ s ∈ Icc t t', ‖H (s, y s) - H (t, y t)‖ ≤ max M 0 * (t' - t) := by
    intro s hs
    refine (norm_image_sub_le_of_norm_deriv_le_segment' (f := fun s => H (s, y s))
      (fun r hr => (hv r (hsub hr)).mono hsub) (fun r hr => hM' r ⟨hr.1, hr.2.le⟩) s hs).trans ?_
    exact mul_le_mul_of_nonneg_left (by linarith [hs.2]) hM0
  have s2 : ∀ s ∈ Icc t t', ‖f s (y s) - f t (y t) - (s - t) • H (t, y t)‖ ≤ max M 0 * (t' - t) * (t' - t) := by
    intro s hs
    have hd : ∀ r ∈ Icc t t', HasDerivWithinAt (fun r => f r (y r) - (r - t) • H (t, y t)) (H (r, y r) - H (t, y t))
        (Icc t t') r := by
      intro r hr
      have h1 : HasDerivWithinAt (fun r : ℝ => (r - t) • H (t, y t)) ((1 : ℝ) • H (t, y t)) (Icc t t') r :=
        ((hasDerivWithinAt_id r _).sub_const t).smul_const _
      rw [one_smul] at h1
      exact ((hu r (hsub hr)).mono hsub).sub h1
    have := norm_image_sub_le_of_norm_deriv_le_segment' hd (fun r hr => s1 r ⟨hr.1, hr.2.le⟩) s hs
    have e : f s (y s) - (s - t) • H (t, y t) - (f t (y t) - (t - t) • H (t, y t)) =
        f s (y s) - f t (y t) - (s - t) • H (t, y t) := by
      rw [sub_self, zero_smul, sub_zero]; abel
    rw [e] at this
    refine this.trans (mul_le_mul_of_nonneg_left (by linarith [hs.2]) (mul_nonneg hM0 (by linarith)))
  have hd : ∀ r ∈ Icc t t', HasDerivWithinAt (fun r => y r - (r - t) • f t (y t) - (r - t) ^ 2 • ((1 / 2 : ℝ) • H (t, y t)))
      (f r (y r) - f t (y t) - (r - t) • H (t, y t)) (Icc t t') r := by
    intro r hr
    have h1 : HasDerivWithinAt (fun r : ℝ => (r - t) • f t (y t)) ((1 : ℝ) • f t (y t)) (Icc t t') r :=
      ((hasDerivWithinAt_id r _).sub_const t).smul_const _
    have h2 : HasDerivWithinAt (fun r : ℝ => (r - t) ^ 2 • ((1 / 2 : ℝ) • H (t, y t)))
        ((2 * (r - t)) • ((1 / 2 : ℝ) • H (t, y t))) (Icc t t') r := by
      have := (((hasDerivWithinAt_id r (Icc t t')).sub_const t).pow 2).smul_const ((1 / 2 : ℝ) • H (t, y t))
      simpa using this
    rw [one_smul] at h1
    refine ((((hy r (hsub hr)).mono hsub).sub h1).sub h2).congr_deriv ?_
    rw [smul_smul]
    congr 2
    ring
  have := norm_image_sub_le_of_norm_deriv_le_segment' hd (fun r hr => s2 r ⟨hr.1, hr.2.le⟩) t' ⟨htt, le_rfl⟩
  have e : y t' - (t' - t) • f t (y t) - (t' - t) ^ 2 • ((1 / 2 : ℝ) • H (t, y t)) -
      (y t - (t - t) • f t (y t) - (t - t) ^ 2 • ((1 / 2 : ℝ) • H (t, y t))) =
      y t' - (y t + (t' - t) • f t (y t)) - (t' - t) ^ 2 • ((1 / 2 : ℝ) • H (t, y t)) := by
    rw [sub_self, zero_smul, zero_pow two_ne_zero, zero_smul]; abel
  rw [e] at this
  refine this.trans (le_of_eq ?_)
  ring

/-- **C98.** `HyperEuler` gains an order when its hypernet is the exact leading residual
`(∂f/∂t + ∂f/∂x f) / 2`: whole integrations are of second order. -/
theorem C98_hyperEuler_second_order (f : ℝ → V → V) (hf : ContDiff ℝ 2 (fun p : ℝ × V => f p.1 p.2)) (y : ℝ → V)
    (t0 T L Lg : ℝ) (hL : 0 ≤ L) (hLip : ∀ t x x', ‖f t x - f t x'‖ ≤ L * ‖x - x'‖) (g : ℝ → V → V)
    (hgdef : ∀ t x, g t x = (1 / 2 : ℝ) • fderiv ℝ (fun p : ℝ × V => f p.1 p.2) (t, x) (1, f t x)) (hLg : 0 ≤ Lg)
    (hg : ∀ t x x', ‖g t x - g t x'‖ ≤ Lg * ‖x - x'‖)
    (hy : ∀ t ∈ Icc t0 T, HasDerivWithinAt y (f t (y t)) (Icc t0 T) t) (args : A) :
    ConvergesWithOrder 2 (hyperEulerSolver (Except PyErr) ℝ V A (pureField g)) args f y t0 T := by
  obtain ⟨M, hM, hloc⟩ := taylor2_local hf hy
  obtain ⟨Λ, hΛ, H⟩ := (C98_accuracy f g hL hLip hLg hg args).1
  refine ⟨M * (T - t0) * Real.exp (Λ * (T - t0)), 1, one_pos, fun t1 rest h hh hmono hT hgap => ?_⟩
  have h01 : t0 < t1 := (List.pairwise_cons.1 hmono).1 t1 (by simp)
  have hh0 : 0 ≤ h := (sub_nonneg.2 h01.le).trans (hgap 0 t0 t1 rfl rfl)
  obtain ⟨φ, sol, h1, h2, h3, h4⟩ := H y t0 T t1 rest h (M * h) hh (by positivity) hmono hT (by
    intro k t t' hk hk'
    have hg' := hgap k t t' hk hk'
    refine ⟨hg', ?_⟩
    have hlt : t < t' := by
      obtain ⟨h1, rfl⟩ := List.getElem?_eq_some_iff.1 hk
      obtain ⟨h2, rfl⟩ := List.getElem?_eq_some_iff.1 hk'
      exact List.pairwise_iff_getElem.1 hmono k (k + 1) h1 h2 (by omega)
    have ht0 : t0 ≤ t := by
      rcases List.mem_cons.1 (List.mem_of_getElem? hk) with rfl | hm
      · exact le_rfl
      · exact ((List.pairwise_cons.1 hmono).1 t hm).le
    have hl := hloc t t' ht0 hlt.le (hT t' (List.mem_of_getElem? hk'))
    have hpos : 0 < t' - t := sub_pos.2 hlt
    have e : g t (y t) - ((t' - t) ^ (1 + 1))⁻¹ • (y t' - (y t + (t' - t) • f t (y t))) =
        -(((t' - t) ^ 2)⁻¹ • (y t' - (y t + (t' - t) • f t (y t)) - (t' - t) ^ 2 • g t (y t))) := by
      rw [smul_sub _ (y t' - _), smul_smul, inv_mul_cancel₀ (pow_pos hpos 2).ne', one_smul]
      abel
    rw [e, norm_neg, norm_smul, norm_inv, Real.norm_of_nonneg (pow_nonneg hpos.le 2), hgdef]
    calc ((t' - t) ^ 2)⁻¹ * _ ≤ ((t' - t) ^ 2)⁻¹ * (M * (t' - t) ^ 3) := mul_le_mul_of_nonneg_left hl (by positivity)
      _ = M * (t' - t) := by field_simp
      _ ≤ M * h := mul_le_mul_of_nonneg_left hg' hM)
  refine ⟨φ, sol, h1, h2, h3, fun k t x hk hx => (h4 k t x hk hx).trans (le_of_eq ?_)⟩
  ring

/-- Non-vacuity: `x' = -x` with the hypernet `x / 2`. -/
example : ConvergesWithOrder 2 (hyperEulerSolver (Except PyErr) ℝ ℝ Unit (pureField fun _ x => 1 / 2 * x)) ()
    (fun _ x => -x) (fun t => Real.exp (-t)) 0 1 := by
  refine C98_hyperEuler_second_order (fun _ x => -x) (by fun_prop) _ 0 1 1 1 zero_le_one (fun t x x' => ?_) _ (fun t x => ?_)
    zero_le_one (fun t x x' => ?_) (fun t _ => ?_) ()
  · rw [one_mul, neg_sub_neg, norm_sub_rev]
  · have : HasFDerivAt (fun p : ℝ × ℝ => -p.2) (-ContinuousLinearMap.snd ℝ ℝ ℝ) (t, x) := hasFDerivAt_snd.neg
    rw [this.fderiv]
    simp
  · rw [← mul_sub, norm_mul, one_mul]
    exact mul_le_of_le_one_left (norm_nonneg _) (by norm_num)
  · have := (hasDerivAt_neg t).exp
    simpa using this.hasDerivWithinAt

end order

section direction

variable {K : Type} [Field K] [LinearOrder K] [IsStrictOrderedRing K]

theorem gridStates_telescope (φ : K → K → K → K) (P : K → K) (h : ∀ x t t', φ x t (t' - t) = x + (P t' - P t)) :
    ∀ (ts : List K) (x t0 : K), gridStates φ x (t0 :: ts) = (t0 :: ts).map fun t => x + (P t - P t0) := by
  intro ts
  induction ts with
  | nil => intro x t0; simp [gridStates]
  | cons t1 ts ih =>
    intro x t0
    rw [gridStates, h, ih]
    simp only [List.map_cons, sub_self, add_zero, List.cons.injEq, true_and]
    exact List.map_congr_left fun t _ => by ring

/-- **C98.** On `x' = t²` the residual of `midpoint` is exactly `1/12`; `HyperMidpoint` with this hypernet is exact on every
increasing grid. -/
theorem C98_forward_exact (x t0 t1 : K) (rest : List K) (hdir : t0 ≤ t1) (hsep : Separated (t0 :: t1 :: rest)) :
    odeintFixed (pureField fun t _ => t ^ 2) x (t0 :: t1 :: rest)
      (hyperMidpointSolver (Except PyErr) K K Unit (pureField fun _ _ => 1 / 12)) [] () =
      .ok (t0 :: t1 :: rest, (t0 :: t1 :: rest).map fun t => x + (t ^ 3 / 3 - t0 ^ 3 / 3)) := by
  have hs : SteppedBy (hyperMidpointSolver (Except PyErr) K K Unit (pureField fun _ _ => 1 / 12)) (fun t _ => t ^ 2) ()
      (fun x t dt => x + dt • (t + 1 / 2 * dt) ^ 2 + dt ^ 3 • (1 / 12 : K)) := fun _ _ _ => ⟨none, none, rfl⟩
  rw [odeintFixed_forward _ _ _ hdir, fixedOdeint_default _ (pure ()) _ hs.tick x _ (by simp) hsep, tickN_pure,
    gridStates_telescope _ (fun t => t ^ 3 / 3)]
  · rfl
  · intro x t t'
    simp only [smul_eq_mul]
    field_simp
    ring

/-- **C98 is false of the code on decreasing grids**: the field is negated but the hypernet is not. With the hypernet that is
exact on increasing grids, `HyperMidpoint` is wrong on every decreasing grid with two points, by exactly twice the error of
plain `midpoint`. -/
theorem C98_backward_refuted (x t0 t1 : K) (hdir : t1 < t0) (hsep : Separated [t0, t1]) :
    (∃ ts z, odeintFixed (pureField fun t _ => t ^ 2) x [t0, t1]
      (hyperMidpointSolver (Except PyErr) K K Unit (pureField fun _ _ => 1 / 12)) [] () = .ok (ts, [x, z]) ∧
      z - (x + (t1 ^ 3 / 3 - t0 ^ 3 / 3)) = (t0 - t1) ^ 3 / 6 ∧ 0 < (t0 - t1) ^ 3 / 6) ∧
    ∃ ts z, odeintFixed (pureField fun t _ => t ^ 2) x [t0, t1] (midpointSolver (Except PyErr) K K Unit) [] () =
      .ok (ts, [x, z]) ∧ z - (x + (t1 ^ 3 / 3 - t0 ^ 3 / 3)) = (t0 - t1) ^ 3 / 12 := by
  have hs : SteppedBy (hyperMidpointSolver (Except PyErr) K K Unit (pureField fun _ _ => 1 / 12))
      (fun t _ => -(-t) ^ 2) () (fun x t dt => x + dt • -(-(t + 1 / 2 * dt)) ^ 2 + dt ^ 3 • (1 / 12 : K)) :=
    fun _ _ _ => ⟨none, none, rfl⟩
  have hpos : 0 < t0 - t1 := sub_pos.2 hdir
  refine ⟨⟨[-t0, -t1], x + (-t1 - -t0) • -(-(-t0 + 1 / 2 * (-t1 - -t0))) ^ 2 + (-t1 - -t0) ^ 3 • (1 / 12 : K), ?_, ?_,
    by positivity⟩, [-t0, -t1], x + (-t1 - -t0) • -(-(-t0 + 1 / 2 * (-t1 - -t0))) ^ 2, ?_, ?_⟩
  · rw [odeintFixed_backward _ _ _ hdir, fixedOdeint_default _ (pure ()) _ hs.tick x _ (by simp)
      ((separated_neg _).2 hsep), tickN_pure]
    rfl
  · simp only [smul_eq_mul]
    field_simp
    ring
  · rw [odeintFixed_backward _ _ _ hdir, fixedOdeint_default _ (pure ()) _
      (midpoint_steppedBy (fun t _ => -(-t) ^ 2) ()).tick x _ (by simp) ((separated_neg _).2 hsep), tickN_pure]
    rfl
  · simp only [smul_eq_mul]
    field_simp
    ring

/-- Non-vacuity of the grids. -/
example : Separated [(0 : ℚ), 1 / 2, 1] ∧ Separated [(1 : ℚ), 0] := by
  unfold Separated Close
  constructor <;> simp <;> norm_num [abs_le]

end direction

end Torchdyn
