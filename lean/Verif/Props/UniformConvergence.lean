import Verif.Proofs.UniformOrder
import Verif.Props.LocalConvergence

/-!
Property C108: the error constants of fixed-step integration are uniform over all solutions in a bounded region. A user who
integrates a batch of initial conditions, or restarts from a state in the middle of a trajectory, relies on one step size
being good for all of them.
-/

set_option linter.unusedSectionVars false
set_option linter.unusedSimpArgs false

namespace Torchdyn

open Spec Set

variable {V A : Type} [NormedAddCommGroup V] [NormedSpace ℝ V]

/-- One step of `φ`, from states within distance one of a solution bounded by `R`: the error grows by at most `1 + L h` and
`C h ^ (p + 1)` is added, with constants that do not depend on the solution. -/
def OneStepNear (p : ℕ) (φ : V → ℝ → ℝ → V) (f : ℝ → V → V) (R t0 T : ℝ) : Prop :=
  ∃ C L δ, 0 ≤ C ∧ 0 ≤ L ∧ 0 < δ ∧ ∀ (y : ℝ → V) (t h : ℝ) (x : V), t0 ≤ t → 0 ≤ h → h ≤ δ → t + h ≤ T →
    (∀ s ∈ Icc t (t + h), HasDerivWithinAt y (f s (y s)) (Icc t (t + h)) s ∧ ‖y s‖ ≤ R) → ‖x - y t‖ ≤ 1 →
    ‖φ x t h - y (t + h)‖ ≤ (1 + L * h) * ‖x - y t‖ + C * h ^ (p + 1)

/-- For every `R` there are `C` and `δ > 0` such that for all solutions `y` of `x' = f(t, x)` on intervals `[a, b]` inside
`[t0, T]` with `‖y‖ ≤ R`, all initial states within `δ` of `y a` and all increasing grids from `a` in `[a, b]` with gaps at
most `h ≤ δ`, the states differ from `y` by at most `C (h ^ p + ‖x0 - y a‖)`; these states are what `odeint` returns on
every grid it accepts. -/
def ConvergesUniformly (p : ℕ) (solver : Solver (Except PyErr) ℝ V A) (args : A) (f : ℝ → V → V) (t0 T : ℝ) : Prop :=
  ∀ R : ℝ, ∃ C δ, 0 ≤ C ∧ 0 < δ ∧ ∀ (y : ℝ → V) (a b : ℝ), t0 ≤ a → b ≤ T →
    (∀ t ∈ Icc a b, HasDerivWithinAt y (f t (y t)) (Icc a b) t) → (∀ t ∈ Icc a b, ‖y t‖ ≤ R) →
    ∀ (x0 : V) (t1 : ℝ) (rest : List ℝ) (h : ℝ), ‖x0 - y a‖ ≤ δ → h ≤ δ →
    (a :: t1 :: rest).Pairwise (· < ·) → (∀ t ∈ a :: t1 :: rest, t ≤ b) →
    (∀ (k : ℕ) (t t' : ℝ), (a :: t1 :: rest)[k]? = some t → (a :: t1 :: rest)[k + 1]? = some t' → t' - t ≤ h) →
    ∃ φ sol, SteppedBy solver f args φ ∧ IsTrajectory φ x0 (a :: t1 :: rest) sol ∧
      (Separated (a :: t1 :: rest) →
        odeintFixed (pureField f) x0 (a :: t1 :: rest) solver [] args = .ok (a :: t1 :: rest, sol)) ∧
      ∀ (k : ℕ) (t : ℝ) (x : V), (a :: t1 :: rest)[k]? = some t → sol[k]? = some x →
        ‖x - y t‖ ≤ C * (h ^ p + ‖x0 - y a‖)

theorem OneStepNear.uniform {p : ℕ} (hp : p ≠ 0) {φ : V → ℝ → ℝ → V} {f : ℝ → V → V} {t0 T : ℝ}
    (H : ∀ R, OneStepNear p φ f R t0 T) {solver : Solver (Except PyErr) ℝ V A} {args : A} (hs : SteppedBy solver f args φ) :
    ConvergesUniformly p solver args f t0 T := by
  intro R
  obtain ⟨C, L, δ, hC, hL, hδ, H⟩ := H R
  generalize hE : Real.exp (L * |T - t0|) = E
  have hE1 : 1 ≤ E := hE ▸ Real.one_le_exp (by positivity)
  have hQ : 0 < 2 * (E * (1 + C * |T - t0|)) := by positivity
  refine ⟨E * (1 + C * |T - t0|), min δ (min 1 (1 / (2 * (E * (1 + C * |T - t0|))))), by positivity,
    lt_min hδ (lt_min one_pos (div_pos one_pos hQ)), ?_⟩
  intro y a b h0a hbT hy hyR x0 t1 rest h hx0 hh hmono hT hgap
  have hhδ : h ≤ δ := hh.trans (min_le_left _ _)
  have hh1 : h ≤ 1 := hh.trans ((min_le_right _ _).trans (min_le_left _ _))
  have hhq := hh.trans ((min_le_right _ _).trans (min_le_right _ _))
  have hxq := hx0.trans ((min_le_right _ _).trans (min_le_right _ _))
  rw [le_div_iff₀ hQ] at hhq hxq
  have h01 : a < t1 := (List.pairwise_cons.1 hmono).1 t1 (by simp)
  have hh0 : 0 ≤ h := (sub_nonneg.2 h01.le).trans (hgap 0 a t1 rfl rfl)
  have hhp : h ^ p ≤ h := by
    calc h ^ p ≤ h ^ 1 := pow_le_pow_of_le_one hh0 hh1 (by omega)
      _ = h := pow_one h
  have hhp0 : 0 ≤ h ^ p := by positivity
  have hn0 := norm_nonneg (x0 - y a)
  have htraj := gridStates_isTrajectory φ x0 (a :: t1 :: rest) (by simp)
  generalize gridStates φ x0 (a :: t1 :: rest) = sol at htraj
  have hab : a ≤ b := hT a (by simp)
  have hlen : b - a ≤ |T - t0| := by
    rw [abs_of_nonneg (by linarith)]
    linarith
  -- sharp form of the bound
  have key : ∀ (k : ℕ) (t : ℝ) (x : V), (a :: t1 :: rest)[k]? = some t → sol[k]? = some x →
      ‖x - y t‖ ≤ Real.exp (L * (t - a)) * (‖x0 - y a‖ + C * h ^ p * (t - a)) := by
    intro k
    induction k with
    | zero =>
      intro t x hk hx
      rw [htraj.start] at hx
      simp only [List.getElem?_cons_zero, Option.some.injEq] at hk hx
      subst hk hx
      simp
    | succ k ih =>
      intro t' x' hk' hx'
      have hlk : k + 1 < (a :: t1 :: rest).length := (List.getElem?_eq_some_iff.1 hk').1
      obtain ⟨t, hk⟩ : ∃ t, (a :: t1 :: rest)[k]? = some t := ⟨_, List.getElem?_eq_getElem (by omega)⟩
      obtain ⟨x, hx⟩ : ∃ x, sol[k]? = some x := ⟨_, List.getElem?_eq_getElem (by rw [htraj.length_eq]; omega)⟩
      have hnext := htraj.next k t t' x hk hk' hx
      rw [hx'] at hnext
      cases hnext
      have hat : a ≤ t := by
        rcases List.mem_cons.1 (List.mem_of_getElem? hk) with rfl | hm
        · exact le_rfl
        · exact ((List.pairwise_cons.1 hmono).1 t hm).le
      have htt' : t < t' := by
        have := List.pairwise_iff_getElem.1 hmono k (k + 1) (by omega) hlk (by omega)
        obtain ⟨_, rfl⟩ := List.getElem?_eq_some_iff.1 hk
        obtain ⟨_, rfl⟩ := List.getElem?_eq_some_iff.1 hk'
        exact this
      have ht'b : t' ≤ b := hT t' (List.mem_of_getElem? hk')
      have hI := ih t x hk hx
      have hg := hgap k t t' hk hk'
      have hexpE : Real.exp (L * (t - a)) ≤ E := by
        rw [← hE]
        exact Real.exp_le_exp.2 (mul_le_mul_of_nonneg_left (by linarith) hL)
      have hs0 : 0 ≤ t - a := by linarith
      have hx1 : ‖x - y t‖ ≤ 1 := by
        refine hI.trans ?_
        have h1 : ‖x0 - y a‖ + C * h ^ p * (t - a) ≤ (1 + C * |T - t0|) * (‖x0 - y a‖ + h) := by
          have e1 : C * h ^ p * (t - a) ≤ C * h * |T - t0| :=
            mul_le_mul (mul_le_mul_of_nonneg_left hhp hC) (by linarith) hs0 (by positivity)
          have e2 : 0 ≤ C * |T - t0| * ‖x0 - y a‖ := by positivity
          nlinarith
        calc Real.exp (L * (t - a)) * (‖x0 - y a‖ + C * h ^ p * (t - a))
            ≤ E * ((1 + C * |T - t0|) * (‖x0 - y a‖ + h)) := mul_le_mul hexpE h1 (by positivity) (by linarith)
          _ ≤ 1 := by nlinarith
      have hstep := H y t (t' - t) x (h0a.trans hat) (by linarith) (hg.trans hhδ) (by linarith) (by
        rw [add_sub_cancel]
        intro s hs
        have hsub : Icc t t' ⊆ Icc a b := Icc_subset_Icc hat ht'b
        exact ⟨(hy s (hsub hs)).mono hsub, hyR s (hsub hs)⟩) hx1
      rw [add_sub_cancel] at hstep
      refine hstep.trans ?_
      have hd0 : 0 ≤ t' - t := by linarith
      have hst : t' - a = (t - a) + (t' - t) := by ring
      rw [hst]
      have hCp : C * (t' - t) ^ (p + 1) ≤ C * h ^ p * (t' - t) := by
        rw [pow_succ, ← mul_assoc]
        gcongr
      generalize t' - t = g at *
      generalize t - a = s at *
      have hexp : 1 + L * g ≤ Real.exp (L * g) := by
        have := Real.add_one_le_exp (L * g); linarith
      have hEE : Real.exp (L * (s + g)) = Real.exp (L * g) * Real.exp (L * s) := by rw [← Real.exp_add]; ring_nf
      have hexp0 : 1 ≤ Real.exp (L * (s + g)) := Real.one_le_exp (by positivity)
      have hCg : 0 ≤ C * h ^ p * g := by positivity
      calc (1 + L * g) * ‖x - y t‖ + C * g ^ (p + 1)
          ≤ Real.exp (L * g) * (Real.exp (L * s) * (‖x0 - y a‖ + C * h ^ p * s)) +
              C * h ^ p * g * Real.exp (L * (s + g)) := by
            refine add_le_add (mul_le_mul hexp hI (norm_nonneg _) (Real.exp_pos _).le) (hCp.trans ?_)
            nlinarith
        _ = _ := by rw [hEE]; ring
  refine ⟨φ, sol, hs, htraj, fun hsep => ?_, fun k t x hk hx => ?_⟩
  · obtain ⟨sol', hrun, ht⟩ := C12_trajectory hs x0 a t1 rest h01.le hsep
    rw [hrun, ht.eq_gridStates (by simp), htraj.eq_gridStates (by simp)]
  · refine (key k t x hk hx).trans ?_
    have hat : a ≤ t := by
      rcases List.mem_cons.1 (List.mem_of_getElem? hk) with rfl | hm
      · exact le_rfl
      · exact ((List.pairwise_cons.1 hmono).1 t hm).le
    have htb : t ≤ b := hT t (List.mem_of_getElem? hk)
    have h1 : Real.exp (L * (t - a)) ≤ E := by
      rw [← hE]
      exact Real.exp_le_exp.2 (mul_le_mul_of_nonneg_left (by linarith) hL)
    rw [mul_assoc E]
    refine mul_le_mul h1 ?_ (add_nonneg hn0 (mul_nonneg (mul_nonneg hC hhp0) (by linarith))) (by linarith)
    have e1 : C * h ^ p * (t - a) ≤ C * h ^ p * |T - t0| := mul_le_mul_of_nonneg_left (by linarith) (by positivity)
    have e2 : 0 ≤ C * |T - t0| * ‖x0 - y a‖ := by positivity
    nlinarith

variable [FiniteDimensional ℝ V]

/-- Explicit Runge-Kutta methods of order `n + 1` on fields with `n + 1` continuous derivatives. -/
theorem rk_one_step {f : ℝ → V → V} {n : ℕ} (hf : ContDiff ℝ (n + 1) (fun p : ℝ × V => f p.1 p.2)) (M : List (List ℝ))
    (hM : Explicit 0 M) (b : List ℝ) (hord : ∀ τ : RTree, τ.order ≤ n + 1 → orderDefect M b τ = 0)
    {φ : V → ℝ → ℝ → V} (hφ : ∀ x t h, φ x t h = x + h • comb b (rkStagesT f x t h (M.map fun row => (row.sum, row)) []))
    (t0 T R : ℝ) : OneStepNear (n + 1) φ f R t0 T := by
  have : ProperSpace V := FiniteDimensional.proper ℝ V
  obtain ⟨G, hG, ⟨L, hL0, hL⟩, ⟨B, hB⟩, hFG⟩ := exists_cutoff (n := n + 1) (by omega) (by exact_mod_cast hf)
    (R := |R| + |t0| + |T| + 2 + 1) (by positivity)
  have hB0 : 0 ≤ B := (norm_nonneg _).trans (hB 0)
  have hag : ∀ t x, t0 - 1 ≤ t → t ≤ T + 1 → ‖x‖ ≤ |R| + 2 → f t x = G (t, x) := by
    intro t x h1 h2 h3
    refine hFG (t, x) ?_
    rw [Prod.norm_def]
    have := neg_abs_le t0
    have := le_abs_self T
    have := abs_nonneg t0
    have := abs_nonneg T
    have := abs_nonneg R
    refine max_le ?_ ?_
    · rw [Real.norm_eq_abs, abs_le]
      constructor <;> linarith
    · linarith
  have hGc : ContDiff ℝ (n + 1) (fun p : ℝ × V => (fun t x => G (t, x)) p.1 p.2) := by exact_mod_cast hG
  have hK : IsCompact (Icc t0 T ×ˢ Metric.closedBall (0 : V) |R|) := isCompact_Icc.prod (isCompact_closedBall _ _)
  obtain ⟨C, δ, hC, hδ, hloc⟩ := rk_local_error_uniform hK
    (withTime_contDiff (f := fun t x => G (t, x)) hGc) M hM b hord
  have hLip : ∀ t x x', ‖(fun t x => G (t, x)) t x - (fun t x => G (t, x)) t x'‖ ≤ L * ‖x - x'‖ := by
    intro t x x'
    refine (hL _ _).trans (le_of_eq ?_)
    simp [Prod.norm_def]
  generalize hrows : M.map (fun row => (row.sum, row)) = rows at *
  obtain ⟨Λ, hΛ, hlip⟩ := rkStagesT_lipschitz hL0 hδ.le hLip rows 0 le_rfl
  have hs0 : 0 ≤ (b.map abs).sum := List.sum_nonneg (by simp +contextual)
  generalize hS : (b.map abs).sum = S at hs0
  obtain ⟨W, hW0, hW⟩ := exists_row_bound rows
  have hden : 0 < 1 + W * B + W := by positivity
  refine ⟨C, S * Λ, min δ (1 / (1 + W * B + W)), hC, by positivity, lt_min hδ (div_pos one_pos hden), ?_⟩
  intro y t h x ht h0 hh hT hy hx
  have hhδ : h ≤ δ := hh.trans (min_le_left _ _)
  have hhW := hh.trans (min_le_right _ _)
  rw [le_div_iff₀ hden] at hhW
  have hWB : 0 ≤ h * (W * B) := by positivity
  have hhW0 : 0 ≤ h * W := by positivity
  have hyt := (hy t ⟨le_rfl, by linarith⟩).2
  have hxR : ‖x‖ ≤ |R| + 1 := by
    have h2 : ‖x‖ ≤ ‖x - y t‖ + ‖y t‖ := by simpa using norm_add_le (x - y t) (y t)
    have := le_abs_self R
    linarith
  have e1 : φ x t h = x + h • comb b (rkStagesT (fun t x => G (t, x)) x t h rows []) := by
    rw [hφ, rkStagesT_congr (g := fun t x => G (t, x)) (fun t x => hB _) hag h0 (W := W) (by nlinarith) (by nlinarith)
      (by nlinarith) rows hW [] (by simp)]
  -- local error along `y`
  have hl := hloc (fun s => (t + s, y (t + s))) h h0 hhδ (by
    intro s hs
    have hmap : MapsTo (fun s => t + s) (Icc 0 h) (Icc t (t + h)) := fun s hs => ⟨by linarith [hs.1], by linarith [hs.2]⟩
    have hys := hy (t + s) (hmap hs)
    have hyR : ‖y (t + s)‖ ≤ |R| := hys.2.trans (le_abs_self R)
    have d1 : HasDerivWithinAt (fun s => y (t + s)) (f (t + s) (y (t + s))) (Icc 0 h) s := by
      have := hys.1.scomp s (h := fun s => t + s) (s := Icc 0 h) (h' := 1)
        ((hasDerivAt_id s).const_add t).hasDerivWithinAt hmap
      rw [one_smul] at this
      exact this
    rw [hag (t + s) (y (t + s)) (by linarith [hs.1]) (by linarith [hs.2]) (by linarith)] at d1
    refine ⟨HasDerivWithinAt.prodMk ((hasDerivAt_id s).const_add t).hasDerivWithinAt d1, ⟨?_, by simpa using hyR⟩⟩
    exact ⟨by simp only; linarith [hs.1], by simp only; linarith [hs.2]⟩)
  simp only [add_zero] at hl
  have e := rkStages_withTime (fun t x => G (t, x)) (y t) t h M [] hM
  rw [List.map_nil, hrows] at e
  rw [e] at hl
  have hl2 : ‖y t + h • comb b (rkStagesT (fun t x => G (t, x)) (y t) t h rows []) - y (t + h)‖ ≤ C * h ^ (n + 2) := by
    refine le_trans (le_of_eq ?_) ((norm_snd_le _).trans hl)
    simp [snd_comb]
  -- stability
  have hc := comb_sub_le b (by positivity) (hlip t h x (y t) [] [] h0 hhδ List.Forall₂.nil)
  rw [hS] at hc
  rw [e1]
  generalize comb b (rkStagesT (fun t x => G (t, x)) x t h rows []) = u at *
  generalize comb b (rkStagesT (fun t x => G (t, x)) (y t) t h rows []) = u' at *
  have e2 : x + h • u - y (t + h) = ((x - y t) + h • (u - u')) + (y t + h • u' - y (t + h)) := by
    rw [smul_sub]; abel
  rw [e2]
  refine (norm_add_le _ _).trans (add_le_add ?_ hl2)
  refine (norm_add_le _ _).trans ?_
  rw [norm_smul, Real.norm_of_nonneg h0, add_mul, one_mul]
  refine add_le_add le_rfl ?_
  calc h * ‖u - u'‖ ≤ h * (S * (Λ * ‖x - y t‖)) := mul_le_mul_of_nonneg_left hc h0
    _ = _ := by ring

theorem euler_one_step {f : ℝ → V → V} (hf : ContDiff ℝ 1 (fun p : ℝ × V => f p.1 p.2)) (t0 T R : ℝ) :
    OneStepNear 1 (fun x t h => x + h • f t x) f R t0 T :=
  rk_one_step (n := 0) (by exact_mod_cast hf) [[]] (by simp [Explicit]) [1] euler_order_conditions
    (fun x t h => by simp [rkStagesT, comb]) t0 T R

theorem midpoint_one_step {f : ℝ → V → V} (hf : ContDiff ℝ 2 (fun p : ℝ × V => f p.1 p.2)) (t0 T R : ℝ) :
    OneStepNear 2 (fun x t h => x + h • f (t + (1 / 2 : ℝ) * h) (x + ((1 / 2 : ℝ) * h) • f t x)) f R t0 T :=
  rk_one_step (n := 1) (by exact_mod_cast hf) [[], [1 / 2]] (by simp [Explicit]) [0, 1] midpoint_order_conditions
    (fun x t h => by
      have := midpoint_rk f x t h ()
      simp only [List.map_cons, List.map_nil, List.sum_nil, List.sum_cons, add_zero]
      rw [← this]
      rfl) t0 T R

theorem rk4_one_step {F : V → V} (hF : ContDiff ℝ 4 F) (t0 T R : ℝ) :
    OneStepNear 4 (rk4Update fun _ x => F x) (fun _ x => F x) R t0 T := by
  have hrows : ((butcherRows (constructRk4 ℝ)).map fun row => (row.sum, row)).map Prod.snd = butcherRows (constructRk4 ℝ) := by
    simp [Function.comp_def]
  refine rk_one_step (n := 3) (f := fun _ x => F x) ?_ (butcherRows (constructRk4 ℝ))
    (by simp [Explicit, butcherRows, constructRk4]) (constructRk4 ℝ).bsol (fun τ hτ => by
        rw [rk4_rows_cast, rk4_bsol_cast, orderDefect_cast, C05_rk4_order_conditions_partial τ hτ, Rat.cast_zero])
    (fun x t h => ?_) t0 T R
  · exact_mod_cast hF.comp contDiff_snd
  · rw [rkStagesT_autonomous, hrows]
    exact rk4_rk F x t h ()

/-- **C108.** `euler` converges with first order, uniformly over all solutions in a bounded region. -/
theorem C108_euler (f : ℝ → V → V) (hf : ContDiff ℝ 1 (fun p : ℝ × V => f p.1 p.2)) (t0 T : ℝ) (args : A) :
    ConvergesUniformly 1 (eulerSolver (Except PyErr) ℝ V A) args f t0 T :=
  OneStepNear.uniform one_ne_zero (fun R => euler_one_step hf t0 T R) (euler_steppedBy f args)

/-- **C108.** `midpoint` converges with second order, uniformly over all solutions in a bounded region. -/
theorem C108_midpoint (f : ℝ → V → V) (hf : ContDiff ℝ 2 (fun p : ℝ × V => f p.1 p.2)) (t0 T : ℝ) (args : A) :
    ConvergesUniformly 2 (midpointSolver (Except PyErr) ℝ V A) args f t0 T :=
  OneStepNear.uniform two_ne_zero (fun R => midpoint_one_step hf t0 T R) (midpoint_steppedBy f args)

/-- **C108 (partial: autonomous fields).** `rk4` converges with fourth order, uniformly over all solutions in a bounded
region. Missing: time-dependent fields, where it is false (`C82_rk4_time_refuted`). -/
theorem C108_rk4_partial (F : V → V) (hF : ContDiff ℝ 4 F) (t0 T : ℝ) (args : A) :
    ConvergesUniformly 4 (rk4Solver (Except PyErr) ℝ V A) args (fun _ x => F x) t0 T :=
  OneStepNear.uniform four_ne_zero (fun R => rk4_one_step hF t0 T R) (rk4_steppedBy _ args)

/-- Non-vacuity: `x' = x²` (no global Lipschitz constant): one `C` and `δ` serve all solutions `x0 / (1 - x0 t)` with
`0 ≤ x0 ≤ 1` on `[0, 1/2]`, from their exact initial values. -/
example : ∃ C δ : ℝ, 0 < δ ∧ ∀ x0 ∈ Icc (0 : ℝ) 1, ∀ (t1 : ℝ) (rest : List ℝ) (h : ℝ), h ≤ δ →
    (0 :: t1 :: rest).Pairwise (· < ·) → (∀ t ∈ 0 :: t1 :: rest, t ≤ 1 / 2) →
    (∀ (k : ℕ) (t t' : ℝ), (0 :: t1 :: rest)[k]? = some t → (0 :: t1 :: rest)[k + 1]? = some t' → t' - t ≤ h) →
    ∃ φ sol, SteppedBy (rk4Solver (Except PyErr) ℝ ℝ Unit) (fun _ x => x ^ 2) () φ ∧ IsTrajectory φ x0 (0 :: t1 :: rest) sol ∧
      (Separated (0 :: t1 :: rest) → odeintFixed (pureField fun _ x => x ^ 2) x0 (0 :: t1 :: rest)
        (rk4Solver (Except PyErr) ℝ ℝ Unit) [] () = .ok (0 :: t1 :: rest, sol)) ∧
      ∀ (k : ℕ) (t x : ℝ), (0 :: t1 :: rest)[k]? = some t → sol[k]? = some x → ‖x - x0 * (1 - x0 * t)⁻¹‖ ≤ C * h ^ 4 := by
  obtain ⟨C, δ, -, hδ, H⟩ := C108_rk4_partial (A := Unit) (fun x : ℝ => x ^ 2) (by fun_prop) 0 (1 / 2) () 2
  refine ⟨C, δ, hδ, fun x0 hx0 t1 rest h hh hmono hT hgap => ?_⟩
  have hpos : ∀ t ∈ Icc (0 : ℝ) (1 / 2), 1 / 2 ≤ 1 - x0 * t := fun t ht => by nlinarith [hx0.1, hx0.2, ht.1, ht.2]
  obtain ⟨φ, sol, h1, h2, h3, h4⟩ := H (fun t => x0 * (1 - x0 * t)⁻¹) 0 (1 / 2) le_rfl le_rfl (fun t ht => by
      have hne : 1 - x0 * t ≠ 0 := by have := hpos t ht; intro h; linarith
      have h1 : HasDerivAt (fun t : ℝ => 1 - x0 * t) (-x0) t := by simpa using ((hasDerivAt_id t).const_mul x0).const_sub 1
      refine (((h1.inv hne).const_mul x0).congr_deriv ?_).hasDerivWithinAt
      simp only
      field_simp) (fun t ht => by
      have h2 := hpos t ht
      rw [norm_mul, norm_inv, Real.norm_of_nonneg hx0.1, Real.norm_of_nonneg (by linarith), ← div_eq_mul_inv,
        div_le_iff₀ (by linarith)]
      linarith [hx0.2]) x0 t1 rest h (by simpa using hδ.le) hh hmono hT hgap
  refine ⟨φ, sol, h1, h2, h3, fun k t x hk hx => ?_⟩
  simpa using h4 k t x hk hx

end Torchdyn
