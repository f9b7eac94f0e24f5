import Verif.Props.Hyper
import Verif.Props.LocalConvergence

/-!
Property C98 for fields and hypernets without Lipschitz constants.
-/

set_option linter.unusedSectionVars false

namespace Torchdyn

open Set Spec

variable {V : Type} [NormedAddCommGroup V] [NormedSpace ℝ V] [FiniteDimensional ℝ V] {A : Type}

/-- With the hypernet `g`, the base step `base` of order `p` and the solution `y` on `[t0, T]`: there are `C` and `h0 > 0` such that on all increasing
grids with gaps at most `h ≤ h0`, if on all steps of the grid the hypernet is within `δ` of the scaled residual
`(y(t') - base(y(t), t, t' - t)) / (t' - t)^(p+1)` and `C δ h^p` is at most one half, then the states of the integration
differ from `y` by at most `C δ h^p`. -/
def HyperAccurateNear (p : ℕ) (solver : Solver (Except PyErr) ℝ V A) (base : V → ℝ → ℝ → V) (args : A) (f g : ℝ → V → V)
    (y : ℝ → V) (t0 T : ℝ) : Prop :=
  ∃ C h0, 0 ≤ C ∧ 0 < h0 ∧ ∀ (t1 : ℝ) (rest : List ℝ) (h δ : ℝ), h ≤ h0 → 0 ≤ δ → C * (δ * h ^ p) ≤ 1 / 2 →
    (t0 :: t1 :: rest).Pairwise (· < ·) → (∀ t ∈ t0 :: t1 :: rest, t ≤ T) →
    (∀ (k : ℕ) (t t' : ℝ), (t0 :: t1 :: rest)[k]? = some t → (t0 :: t1 :: rest)[k + 1]? = some t' → t' - t ≤ h ∧
      ‖g t (y t) - ((t' - t) ^ (p + 1))⁻¹ • (y t' - base (y t) t (t' - t))‖ ≤ δ) →
    ∃ φ sol, SteppedBy solver f args φ ∧ IsTrajectory φ (y t0) (t0 :: t1 :: rest) sol ∧
      (Separated (t0 :: t1 :: rest) →
        odeintFixed (pureField f) (y t0) (t0 :: t1 :: rest) solver [] args = .ok (t0 :: t1 :: rest, sol)) ∧
      ∀ (k : ℕ) (t : ℝ) (x : V), (t0 :: t1 :: rest)[k]? = some t → sol[k]? = some x → ‖x - y t‖ ≤ C * (δ * h ^ p)

theorem steppedBy_unique {solver : Solver (Except PyErr) ℝ V A} {f : ℝ → V → V} {args : A} {φ ψ : V → ℝ → ℝ → V}
    (h1 : SteppedBy solver f args φ) (h2 : SteppedBy solver f args ψ) : φ = ψ := by
  funext x t dt
  obtain ⟨_, _, a⟩ := h1 x t dt
  obtain ⟨_, _, b⟩ := h2 x t dt
  have := a.symm.trans b
  injection this with this
  injection this

theorem hyper_near {p : ℕ} {args : A} {mk : (ℝ → V → V) → Solver (Except PyErr) ℝ V A}
    {base : (ℝ → V → V) → V → ℝ → ℝ → V}
    (hs : ∀ f g, SteppedBy (mk g) f args fun x t dt => base f x t dt + dt ^ (p + 1) • g t x)
    (rows : List (ℝ × List ℝ)) (b : List ℝ) (hb : ∀ f x t h, base f x t h = x + h • comb b (rkStagesT f x t h rows []))
    {f g : ℝ → V → V} (hf : ContDiff ℝ 1 (fun q : ℝ × V => f q.1 q.2)) (hg : ContDiff ℝ 1 (fun q : ℝ × V => g q.1 q.2))
    {y : ℝ → V} {t0 T : ℝ} (hy : ∀ t ∈ Icc t0 T, HasDerivWithinAt y (f t (y t)) (Icc t0 T) t) :
    HyperAccurateNear p (mk g) (base f) args f g y t0 T := by
  obtain ⟨f', L, M, R, -, hL, hLip, hM, hR, hag, -⟩ := exists_cutoff_time (n := 1) one_ne_zero (by exact_mod_cast hf) hy
  have hR0 : 0 < |R| + |t0| + |T| + 1 := by positivity
  obtain ⟨G, -, ⟨Lg, hLg, hGL⟩, -, hGag⟩ := exists_cutoff (n := 1) one_ne_zero (by exact_mod_cast hg) hR0
  have hgag : ∀ t x, t0 ≤ t → t ≤ T → ‖x‖ ≤ R → g t x = G (t, x) := by
    intro t x h1 h2 h3
    refine hGag (t, x) ?_
    rw [Prod.norm_def]
    have a1 := abs_nonneg R
    have a2 := abs_nonneg t0
    have a3 := abs_nonneg T
    refine max_le ?_ ?_
    · rw [Real.norm_eq_abs, abs_le]
      have := neg_abs_le t0
      have := le_abs_self T
      constructor <;> linarith
    · have := le_abs_self R
      linarith
  obtain ⟨Λ, hΛ, H⟩ := hyper_global (hs f' fun t x => G (t, x)) hLg
    (fun t x x' => (hGL _ _).trans (le_of_eq (by simp [Prod.norm_def]))) (rk_stable hL zero_le_one hLip rows b (hb f'))
  obtain ⟨W, hW0, hW⟩ := exists_row_bound rows
  have hM0 : 0 ≤ M := (norm_nonneg _).trans (hM 0 0)
  have hWM : 0 ≤ W * M := by positivity
  obtain ⟨ρ, hρ0, hρ1, hρM, hρW⟩ : ∃ ρ : ℝ, 0 < ρ ∧ ρ ≤ 1 ∧ ρ * (W * M) ≤ 1 / 2 ∧ ρ * W ≤ 1 := by
    refine ⟨1 / (1 + 2 * (W * M) + W), by positivity, ?_⟩
    generalize hq : 1 / (1 + 2 * (W * M) + W) = q
    have hq0 : 0 ≤ q := hq ▸ by positivity
    have hq1 : q * (1 + 2 * (W * M) + W) = 1 := by rw [← hq]; field_simp
    have a2 : 0 ≤ q * (W * M) := by positivity
    have a3 : 0 ≤ q * W := by positivity
    refine ⟨?_, ?_, ?_⟩ <;> nlinarith
  refine ⟨|T - t0| * Real.exp (Λ * |T - t0|), ρ, by positivity, hρ0, ?_⟩
  intro t1 rest h δ hh hδ hsmall hmono hT hgap
  have h01 : t0 < t1 := (List.pairwise_cons.1 hmono).1 t1 (by simp)
  have hT0 : 0 ≤ T - t0 := by linarith [hT t1 (by simp)]
  rw [abs_of_nonneg hT0] at hsmall ⊢
  have hlt : ∀ j a b', (t0 :: t1 :: rest)[j]? = some a → (t0 :: t1 :: rest)[j + 1]? = some b' → a < b' := by
    intro j a b' hja hjb
    obtain ⟨h1, rfl⟩ := List.getElem?_eq_some_iff.1 hja
    obtain ⟨h2, rfl⟩ := List.getElem?_eq_some_iff.1 hjb
    exact List.pairwise_iff_getElem.1 hmono j (j + 1) h1 h2 (by omega)
  have hge : ∀ (j : ℕ) a, (t0 :: t1 :: rest)[j]? = some a → t0 ≤ a := by
    intro j a hja
    rcases List.mem_cons.1 (List.mem_of_getElem? hja) with rfl | hm
    · exact le_rfl
    · exact ((List.pairwise_cons.1 hmono).1 a hm).le
  -- near the solution the cut-off fields give the same step
  have hsame : ∀ (k : ℕ) t t' x, (t0 :: t1 :: rest)[k]? = some t → (t0 :: t1 :: rest)[k + 1]? = some t' → ‖x - y t‖ ≤ 1 / 2 →
      base f' x t (t' - t) = base f x t (t' - t) ∧ G (t, x) = g t x := by
    intro k t t' x hk hk' hx
    have ht0 := hge k t hk
    have htT := hT t (List.mem_of_getElem? hk)
    have hd : t' - t ≤ ρ := (hgap k t t' hk hk').1.trans hh
    have hd0 : 0 ≤ t' - t := by linarith [hlt k t t' hk hk']
    have hxR : ‖x‖ ≤ ‖y t‖ + 1 / 2 := by
      have h2 : ‖x‖ ≤ ‖x - y t‖ + ‖y t‖ := by simpa using norm_add_le (x - y t) (y t)
      linarith
    have hyR := hR t ⟨ht0, htT⟩
    have e1 : (t' - t) * (W * M) ≤ 1 / 2 := (mul_le_mul_of_nonneg_right hd hWM).trans hρM
    have e2 : (t' - t) * W ≤ 1 := (mul_le_mul_of_nonneg_right hd hW0).trans hρW
    refine ⟨?_, (hgag t x ht0 htT (by linarith)).symm⟩
    rw [hb, hb, rkStagesT_congr hM hag hd0 (W := W) (by linarith) (by linarith) (by linarith) rows hW [] (by simp)]
  obtain ⟨φ, sol, h1, h2, -, h4⟩ := H y t0 T t1 rest h δ (hh.trans hρ1) hδ hmono hT (fun k t t' hk hk' => by
    obtain ⟨e1, e2⟩ := hsame k t t' (y t) hk hk' (by simp)
    simp only [e1, e2]
    exact hgap k t t' hk hk')
  obtain rfl := steppedBy_unique h1 (hs f' fun t x => G (t, x))
  have herr : ∀ (k : ℕ) (t : ℝ) (x : V), (t0 :: t1 :: rest)[k]? = some t → sol[k]? = some x →
      ‖x - y t‖ ≤ (T - t0) * Real.exp (Λ * (T - t0)) * (δ * h ^ p) := by
    intro k t x hk hx
    refine (h4 k t x hk hx).trans (le_of_eq ?_)
    ring
  have htraj' : IsTrajectory (fun x t dt => base f x t dt + dt ^ (p + 1) • g t x) (y t0) (t0 :: t1 :: rest) sol := by
    refine ⟨h2.length_eq, h2.start, fun k t t' x hk hk' hx => ?_⟩
    rw [h2.next k t t' x hk hk' hx]
    obtain ⟨e1, e2⟩ := hsame k t t' x hk hk' ((herr k t x hk hx).trans hsmall)
    simp only [e1, e2]
  refine ⟨_, sol, hs f g, htraj', fun hsep => ?_, herr⟩
  obtain ⟨sol', hrun, ht⟩ := C12_trajectory (hs f g) (y t0) t0 t1 rest h01.le hsep
  rw [hrun, ht.eq_gridStates (by simp), htraj'.eq_gridStates (by simp)]

/-- **C98.** Accuracy of hypersolvers without Lipschitz constants: for every continuously differentiable field and hypernet and
every solution, if the hypernet approximates the scaled residuals of the base solver along the solution within `δ`, the integration is
accurate to `δ h^p` up to a constant, for small steps (`p = 1, 2, 4` for `HyperEuler`, `HyperMidpoint`, `HyperRungeKutta4`). -/
theorem C98_accuracy_local (f g : ℝ → V → V) (hf : ContDiff ℝ 1 (fun q : ℝ × V => f q.1 q.2))
    (hg : ContDiff ℝ 1 (fun q : ℝ × V => g q.1 q.2)) (y : ℝ → V) (t0 T : ℝ)
    (hy : ∀ t ∈ Icc t0 T, HasDerivWithinAt y (f t (y t)) (Icc t0 T) t) (args : A) :
    HyperAccurateNear 1 (hyperEulerSolver (Except PyErr) ℝ V A (pureField g)) (fun x t dt => x + dt • f t x) args f g y t0 T ∧
    HyperAccurateNear 2 (hyperMidpointSolver (Except PyErr) ℝ V A (pureField g))
      (fun x t dt => x + dt • f (t + 1 / 2 * dt) (x + (1 / 2 * dt) • f t x)) args f g y t0 T ∧
    HyperAccurateNear 4 (hyperRk4Solver (Except PyErr) ℝ V A (pureField g)) (rk4Update f) args f g y t0 T := by
  refine ⟨hyper_near (mk := fun g => hyperEulerSolver (Except PyErr) ℝ V A (pureField g))
      (base := fun f x t dt => x + dt • f t x) (fun _ _ _ _ _ => ⟨none, none, rfl⟩) [(0, [])] [1] ?_ hf hg hy,
    hyper_near (mk := fun g => hyperMidpointSolver (Except PyErr) ℝ V A (pureField g))
      (base := fun f x t dt => x + dt • f (t + 1 / 2 * dt) (x + (1 / 2 * dt) • f t x))
      (fun _ _ _ _ _ => ⟨none, none, rfl⟩) [(0, []), (1 / 2, [1 / 2])] [0, 1] ?_ hf hg hy,
    hyper_near (mk := fun g => hyperRk4Solver (Except PyErr) ℝ V A (pureField g)) (base := rk4Update)
      (fun _ _ _ _ _ => ⟨none, none, rfl⟩) [(0, []), (0, [1 / 2]), (1 / 2, [0, 1 / 2]), (1 / 2, [0, 0, 1])]
      [1 / 6, 1 / 3, 1 / 3, 1 / 6] rk4_rkT hf hg hy⟩
  · intro f x t h
    simp [rkStagesT, comb]
  · intro f x t h
    rw [← midpoint_rk f x t h ()]
    rfl

/-- **C98.** `HyperEuler` with the exact leading residual `(∂f/∂t + ∂f/∂x f) / 2` as hypernet is of second order along every solution of a twice
continuously differentiable field. -/
theorem C98_hyperEuler_second_order_local (f : ℝ → V → V) (hf : ContDiff ℝ 2 (fun p : ℝ × V => f p.1 p.2)) (y : ℝ → V)
    (t0 T : ℝ) (g : ℝ → V → V)
    (hgdef : ∀ t x, g t x = (1 / 2 : ℝ) • fderiv ℝ (fun p : ℝ × V => f p.1 p.2) (t, x) (1, f t x))
    (hy : ∀ t ∈ Icc t0 T, HasDerivWithinAt y (f t (y t)) (Icc t0 T) t) (args : A) :
    ConvergesWithOrder 2 (hyperEulerSolver (Except PyErr) ℝ V A (pureField g)) args f y t0 T := by
  obtain ⟨M, hM, hloc⟩ := taylor2_local hf hy
  have hg : ContDiff ℝ 1 (fun q : ℝ × V => g q.1 q.2) := by
    have e : (fun q : ℝ × V => g q.1 q.2) = fun q => (1 / 2 : ℝ) • fderiv ℝ (fun p : ℝ × V => f p.1 p.2) q (1, f q.1 q.2) := by
      funext q; rw [hgdef]
    rw [e]
    have h1 : ContDiff ℝ 1 (fderiv ℝ (fun p : ℝ × V => f p.1 p.2)) := hf.fderiv_right (m := 1) (by norm_num)
    have h2 : ContDiff ℝ 1 (fun p : ℝ × V => f p.1 p.2) := hf.of_le (by norm_num)
    exact (h1.clm_apply (contDiff_const.prodMk h2)).const_smul _
  obtain ⟨C, h0, hC, hh0, H⟩ := (C98_accuracy_local f g (hf.of_le (by norm_num)) hg y t0 T hy args).1
  refine ⟨C * M, min h0 (min 1 (1 / (2 * (C * M + 1)))), lt_min hh0 (lt_min one_pos (by positivity)),
    fun t1 rest h hh hmono hT hgap => ?_⟩
  have h01 : t0 < t1 := (List.pairwise_cons.1 hmono).1 t1 (by simp)
  have hhn : 0 ≤ h := (sub_nonneg.2 h01.le).trans (hgap 0 t0 t1 rfl rfl)
  have hh1 : h ≤ 1 := hh.trans ((min_le_right _ _).trans (min_le_left _ _))
  have hh2 : h ≤ 1 / (2 * (C * M + 1)) := hh.trans ((min_le_right _ _).trans (min_le_right _ _))
  have hsmall : C * (M * h * h ^ 1) ≤ 1 / 2 := by
    rw [le_div_iff₀ (by positivity)] at hh2
    have hCM : 0 ≤ C * M := by positivity
    have : h * h ≤ h := mul_le_of_le_one_left hhn hh1
    nlinarith
  obtain ⟨φ, sol, h1, h2, h3, h4⟩ := H t1 rest h (M * h) (hh.trans (min_le_left _ _)) (by positivity) hsmall hmono hT (by
    intro k t t' hk hk'
    have hg' := hgap k t t' hk hk'
    refine ⟨hg', ?_⟩
    have hlt : t < t' := by
      obtain ⟨h1, rfl⟩ := List.getElem?_eq_some_iff.1 hk
      obtain ⟨h2, rfl⟩ := List.getElem?_eq_some_iff.1 hk'
      exact List.pairwise_iff_getElem.1 hmono k (k + 1) h1 h2 (by omega)
    have ht0 : t0 ≤ t := by
      rcases List.mem_cons.1 (List.mem_of_getElem? hk) with rfl | hm
      · exact le_rfl
      · exact ((List.pairwise_cons.1 hmono).1 t hm).le
    have hl := hloc t t' ht0 hlt.le (hT t' (List.mem_of_getElem? hk'))
    have hpos : 0 < t' - t := sub_pos.2 hlt
    have e : g t (y t) - ((t' - t) ^ (1 + 1))⁻¹ • (y t' - (y t + (t' - t) • f t (y t))) =
        -(((t' - t) ^ 2)⁻¹ • (y t' - (y t + (t' - t) • f t (y t)) - (t' - t) ^ 2 • g t (y t))) := by
      rw [smul_sub _ (y t' - _), smul_smul, inv_mul_cancel₀ (pow_pos hpos 2).ne', one_smul]
      abel
    rw [e, norm_neg, norm_smul, norm_inv, Real.norm_of_nonneg (pow_nonneg hpos.le 2), hgdef]
    calc ((t' - t) ^ 2)⁻¹ * _ ≤ ((t' - t) ^ 2)⁻¹ * (M * (t' - t) ^ 3) := mul_le_mul_of_nonneg_left hl (by positivity)
      _ = M * (t' - t) := by field_simp
      _ ≤ M * h := mul_le_mul_of_nonneg_left hg' hM)
  refine ⟨φ, sol, h1, h2, h3, fun k t x hk hx => (h4 k t x hk hx).trans (le_of_eq ?_)⟩
  ring

/-- Non-vacuity: `x' = x²` (no Lipschitz constant) with the hypernet `x³`. -/
example : ConvergesWithOrder 2 (hyperEulerSolver (Except PyErr) ℝ ℝ Unit (pureField fun _ x => x ^ 3)) ()
    (fun _ x => x ^ 2) (fun t => (1 - t)⁻¹) 0 (1 / 2) := by
  refine C98_hyperEuler_second_order_local (fun _ x => x ^ 2) (by fun_prop) _ 0 (1 / 2) _ (fun t x => ?_) (fun t ht => ?_) ()
  · have : HasFDerivAt (fun p : ℝ × ℝ => p.2 ^ 2) ((2 * x) • ContinuousLinearMap.snd ℝ ℝ ℝ) (t, x) := by
      have := (hasFDerivAt_snd (𝕜 := ℝ) (p := ((t, x) : ℝ × ℝ))).pow 2
      simpa using this
    rw [this.fderiv]
    simp
    ring
  · have h1 : (1 : ℝ) - t ≠ 0 := by linarith [ht.2]
    have := ((hasDerivAt_id t).const_sub 1).inv h1
    refine (this.congr_deriv ?_).hasDerivWithinAt
    simp

end Torchdyn
