import Verif.Props.AdjointCheckpoints
import Verif.Props.Hyper

/-!
Property C110: what `rk4` does on time-dependent fields. The wrong pairing of nodes and stages (ode.py:97-104, see C05) costs
three orders (C82_rk4_time_refuted) but not convergence: integration and adjoint gradients are of first order for every
smooth field, and of fourth order when the time is made part of the state.
-/

set_option linter.unusedSectionVars false
set_option linter.unusedSimpArgs false

namespace Torchdyn

open Spec Set
open scoped Topology

section general

variable {V A : Type} [NormedAddCommGroup V] [NormedSpace ℝ V]

theorem comb_replicate (v : V) : ∀ (b : List ℝ) (n : ℕ), b.length ≤ n → comb b (List.replicate n v) = b.sum • v := by
  intro b
  induction b with
  | nil => intro n _; simp [comb]
  | cons a b ih =>
    intro n hn
    obtain ⟨n, rfl⟩ : ∃ m, n = m + 1 := ⟨n - 1, by simp at hn; omega⟩
    rw [List.replicate_succ, comb, ih n (by simpa using hn), List.sum_cons, add_smul]

/-- Every stage is close to the first one, whatever the nodes. -/
theorem rkStagesT_near {g : ℝ → V → V} {L M W : ℝ} (hM : ∀ t x, ‖g t x‖ ≤ M)
    (hL : ∀ t t' x x', ‖g t x - g t' x'‖ ≤ L * (|t - t'| + ‖x - x'‖)) (hL0 : 0 ≤ L) {x : V} {t h : ℝ} (h0 : 0 ≤ h) :
    ∀ (rows : List (ℝ × List ℝ)), (∀ r ∈ rows, |r.1| ≤ W ∧ (r.2.map abs).sum ≤ W) →
      ∀ (ks : List V), (∀ k ∈ ks, ‖k‖ ≤ M) → (∀ k ∈ ks, ‖k - g t x‖ ≤ L * (W + W * M) * h) →
      (rkStagesT g x t h rows ks).length = rows.length + ks.length ∧
        ∀ k ∈ rkStagesT g x t h rows ks, ‖k - g t x‖ ≤ L * (W + W * M) * h := by
  have hM0 : 0 ≤ M := (norm_nonneg _).trans (hM 0 0)
  intro rows
  induction rows with
  | nil => intro _ ks _ hk; exact ⟨by simp [rkStagesT], hk⟩
  | cons r rows ih =>
    intro hr ks hks hk
    obtain ⟨c, row⟩ := r
    have hc := hr (c, row) (by simp)
    rw [rkStagesT]
    obtain ⟨h1, h2⟩ := ih (fun r hr' => hr r (List.mem_cons_of_mem _ hr'))
      (ks ++ [g (t + c * h) (x + h • comb row ks)])
      (by
        intro k hk'
        rcases List.mem_append.1 hk' with hk' | hk'
        · exact hks k hk'
        · rw [List.mem_singleton.1 hk']
          exact hM _ _)
      (by
        intro k hk'
        rcases List.mem_append.1 hk' with hk' | hk'
        · exact hk k hk'
        · rw [List.mem_singleton.1 hk']
          refine (hL _ _ _ _).trans ?_
          rw [mul_assoc]
          refine mul_le_mul_of_nonneg_left ?_ hL0
          have e1 : |t + c * h - t| ≤ W * h := by
            rw [add_sub_cancel_left, abs_mul, abs_of_nonneg h0]
            exact mul_le_mul_of_nonneg_right hc.1 h0
          have e2 : ‖x + h • comb row ks - x‖ ≤ h * (W * M) := by
            rw [add_sub_cancel_left, norm_smul, Real.norm_of_nonneg h0]
            exact mul_le_mul_of_nonneg_left ((comb_norm_le hM0 row ks hks).trans (mul_le_mul_of_nonneg_right hc.2 hM0)) h0
          linarith)
    refine ⟨?_, h2⟩
    rw [h1]
    simp
    omega

variable [FiniteDimensional ℝ V]

/-- Explicit Runge-Kutta methods with weights of sum one are of first order on continuously differentiable fields, whatever
their nodes. -/
theorem consistent_one_step {f : ℝ → V → V} (hf : ContDiff ℝ 1 (fun p : ℝ × V => f p.1 p.2)) (rows : List (ℝ × List ℝ))
    (b : List ℝ) (hlen : b.length ≤ rows.length) (hb : b.sum = 1)
    {φ : V → ℝ → ℝ → V} (hφ : ∀ x t h, φ x t h = x + h • comb b (rkStagesT f x t h rows []))
    (t0 T R : ℝ) : OneStepNear 1 φ f R t0 T := by
  obtain ⟨C1, L1, δ1, hC1, hL1, hδ1, H1⟩ := euler_one_step hf t0 T R
  obtain ⟨G, -, ⟨L, hL0, hL⟩, ⟨B, hB⟩, hFG⟩ := exists_cutoff (n := 1) (by omega) (by exact_mod_cast hf)
    (R := |R| + |t0| + |T| + 2 + 1) (by positivity)
  have hB0 : 0 ≤ B := (norm_nonneg _).trans (hB 0)
  have hag : ∀ t x, t0 - 1 ≤ t → t ≤ T + 1 → ‖x‖ ≤ |R| + 2 → f t x = G (t, x) := by
    intro t x h1 h2 h3
    refine hFG (t, x) ?_
    rw [Prod.norm_def]
    have := neg_abs_le t0
    have := le_abs_self T
    have := abs_nonneg t0
    have := abs_nonneg T
    have := abs_nonneg R
    refine max_le ?_ ?_
    · rw [Real.norm_eq_abs, abs_le]
      constructor <;> linarith
    · linarith
  have hLip : ∀ t t' x x', ‖(fun t x => G (t, x)) t x - (fun t x => G (t, x)) t' x'‖ ≤ L * (|t - t'| + ‖x - x'‖) := by
    intro t t' x x'
    refine (hL _ _).trans (mul_le_mul_of_nonneg_left ?_ hL0)
    rw [Prod.mk_sub_mk, Prod.norm_def]
    exact max_le (le_add_of_nonneg_right (norm_nonneg _)) (le_add_of_nonneg_left (abs_nonneg _))
  obtain ⟨W, hW0, hW⟩ := exists_row_bound rows
  have hden : 0 < 1 + W * B + W := by positivity
  have hs0 : 0 ≤ (b.map abs).sum := List.sum_nonneg (by simp +contextual)
  refine ⟨C1 + (b.map abs).sum * (L * (W + W * B)), L1, min δ1 (1 / (1 + W * B + W)), by positivity, hL1,
    lt_min hδ1 (div_pos one_pos hden), ?_⟩
  intro y t h x ht h0 hh hT hy hx
  have hhδ : h ≤ δ1 := hh.trans (min_le_left _ _)
  have hhW := hh.trans (min_le_right _ _)
  rw [le_div_iff₀ hden] at hhW
  have hWB : 0 ≤ h * (W * B) := by positivity
  have hhW0 : 0 ≤ h * W := by positivity
  have hexp : h * (1 + W * B + W) = h + h * (W * B) + h * W := by ring
  have hyt := (hy t ⟨le_rfl, by linarith⟩).2
  have hxR : ‖x‖ ≤ |R| + 1 := by
    have h2 : ‖x‖ ≤ ‖x - y t‖ + ‖y t‖ := by simpa using norm_add_le (x - y t) (y t)
    have := le_abs_self R
    linarith
  have e1 : φ x t h = x + h • comb b (rkStagesT (fun t x => G (t, x)) x t h rows []) := by
    rw [hφ, rkStagesT_congr (g := fun t x => G (t, x)) (fun t x => hB _) hag h0 (W := W) (by linarith) (by linarith)
      (by linarith) rows hW [] (by simp)]
  obtain ⟨hl, hk⟩ := rkStagesT_near (g := fun t x => G (t, x)) (fun t x => hB _) hLip hL0 (x := x) (t := t) h0 rows hW []
    (by simp) (by simp)
  have hE := H1 y t h x ht h0 hhδ hT hy hx
  simp only [hag t x (by linarith) (by linarith) (by linarith)] at hE
  have hc : ‖comb b (rkStagesT (fun t x => G (t, x)) x t h rows []) - G (t, x)‖ ≤
      (b.map abs).sum * (L * (W + W * B) * h) := by
    have hr := comb_replicate (G (t, x)) b (rows.length + ([] : List V).length) (by simpa using hlen)
    rw [hb, one_smul] at hr
    rw [← hl] at hr
    generalize rkStagesT (fun t x => G (t, x)) x t h rows [] = ks at *
    conv_lhs => rw [← hr]
    refine comb_sub_le b (by positivity) ?_
    rw [List.forall₂_iff_get]
    refine ⟨by simp, fun i hi hi' => ?_⟩
    simp only [List.get_eq_getElem, List.getElem_replicate]
    exact hk _ (List.getElem_mem hi)
  have e2 : φ x t h - y (t + h) = (x + h • G (t, x) - y (t + h)) +
      h • (comb b (rkStagesT (fun t x => G (t, x)) x t h rows []) - G (t, x)) := by
    rw [e1, smul_sub]
    abel
  rw [e2]
  refine (norm_add_le _ _).trans ?_
  rw [norm_smul, Real.norm_of_nonneg h0]
  have h3 := mul_le_mul_of_nonneg_left hc h0
  have e3 : h * ((b.map abs).sum * (L * (W + W * B) * h)) = (b.map abs).sum * (L * (W + W * B)) * h ^ (1 + 1) := by ring
  rw [add_mul]
  linarith

theorem rk4_one_step_time {f : ℝ → V → V} (hf : ContDiff ℝ 1 (fun p : ℝ × V => f p.1 p.2)) (t0 T R : ℝ) :
    OneStepNear 1 (rk4Update f) f R t0 T :=
  consistent_one_step hf _ _ (by simp) (by norm_num) (rk4_rkT f) t0 T R

/-- **C110.** `rk4` converges with first order for every continuously differentiable field, time-dependent or not, uniformly
over all solutions in a bounded region. -/
theorem C110_rk4 (f : ℝ → V → V) (hf : ContDiff ℝ 1 (fun p : ℝ × V => f p.1 p.2)) (t0 T : ℝ) (args : A) :
    ConvergesUniformly 1 (rk4Solver (Except PyErr) ℝ V A) args f t0 T :=
  OneStepNear.uniform one_ne_zero (fun R => rk4_one_step_time hf t0 T R) (rk4_steppedBy f args)

/-- A uniform bound specialised to one solution. -/
theorem ConvergesUniformly.near {p : ℕ} {solver : Solver (Except PyErr) ℝ V A} {args : A} {f : ℝ → V → V} {t0 T : ℝ}
    (H : ConvergesUniformly p solver args f t0 T) {y : ℝ → V}
    (hy : ∀ t ∈ Icc t0 T, HasDerivWithinAt y (f t (y t)) (Icc t0 T) t) : ConvergesNear p solver args f y t0 T := by
  obtain ⟨R, hR⟩ := isCompact_Icc.exists_bound_of_continuousOn (fun t ht => (hy t ht).continuousWithinAt)
  obtain ⟨C, δ, hC, hδ, h⟩ := H R
  exact ⟨C, δ, hC, hδ, fun x0 t1 rest g h1 h2 h3 h4 h5 => h y t0 T le_rfl le_rfl hy hR x0 t1 rest g h1 h2 h3 h4 h5⟩

/-- **C110.** The remedy: with the time as a component of the state (`x' = f(s, x)`, `s' = 1`), `rk4` is of fourth order for
every field with four continuous derivatives; the computed time component is the time. -/
theorem C110_augmented (f : ℝ → V → V) (hf : ContDiff ℝ 4 (fun p : ℝ × V => f p.1 p.2)) (t0 T : ℝ) (args : A) (y : ℝ → V)
    (hy : ∀ t ∈ Icc t0 T, HasDerivWithinAt y (f t (y t)) (Icc t0 T) t) :
    ConvergesNear 4 (rk4Solver (Except PyErr) ℝ (ℝ × V) A) args (fun _ p => (1, f p.1 p.2)) (fun t => (t, y t)) t0 T :=
  (C108_rk4_partial (fun p : ℝ × V => ((1 : ℝ), f p.1 p.2)) (contDiff_const.prodMk hf) t0 T args).near fun t ht =>
    (hasDerivWithinAt_id t _).prodMk (hy t ht)

/-- **C106 (refutation for time-dependent fields).** On `x' = t`, `rk4` is not even of second order along the solution
`t²/2`. -/
theorem C106_rk4_time_refuted (p : ℕ) (hp : 2 ≤ p) : ¬ ConvergesNear p (rk4Solver (Except PyErr) ℝ ℝ Unit) ()
    (fun t _ => t) (fun t => t ^ 2 / 2) 0 1 := fun H => C82_rk4_time_refuted p hp H.converges

/-- **C108 (refutation for time-dependent fields).** On `x' = t`, `rk4` is not uniformly of second order. -/
theorem C108_rk4_time_refuted (p : ℕ) (hp : 2 ≤ p) : ¬ ConvergesUniformly p (rk4Solver (Except PyErr) ℝ ℝ Unit) ()
    (fun t _ => t) 0 1 := fun H => C106_rk4_time_refuted p hp <| H.near fun t _ => by
  have : HasDerivAt (fun t : ℝ => t ^ 2 / 2) (2 * t / 2) t := by simpa using (hasDerivAt_pow 2 t).div_const 2
  rw [mul_div_cancel_left₀ _ two_ne_zero] at this
  exact this.hasDerivWithinAt

/-- First order is sharp (C82), and fourth order is recovered on the same field by the remedy. -/
example : ¬ ConvergesWithOrder 2 (rk4Solver (Except PyErr) ℝ ℝ Unit) () (fun t _ => t) (fun t => t ^ 2 / 2) 0 1 ∧
    ConvergesNear 1 (rk4Solver (Except PyErr) ℝ ℝ Unit) () (fun t _ => t) (fun t => t ^ 2 / 2) 0 1 ∧
    ConvergesNear 4 (rk4Solver (Except PyErr) ℝ (ℝ × ℝ) Unit) () (fun _ p => (1, p.1)) (fun t => (t, t ^ 2 / 2)) 0 1 := by
  have hy : ∀ t ∈ Icc (0 : ℝ) 1, HasDerivWithinAt (fun t : ℝ => t ^ 2 / 2) t (Icc 0 1) t := fun t _ =>
    (((hasDerivAt_pow 2 t).div_const 2).congr_deriv (by simp)).hasDerivWithinAt
  exact ⟨C82_rk4_time_refuted 2 le_rfl, (C110_rk4 (fun t _ => t) (by fun_prop) 0 1 ()).near hy,
    C110_augmented (fun t _ => t) (by fun_prop) 0 1 () _ hy⟩

end general

section gradients

variable {X P : Type} [NormedAddCommGroup X] [NormedSpace ℝ X] [FiniteDimensional ℝ X]
  [NormedAddCommGroup P] [NormedSpace ℝ P] [FiniteDimensional ℝ P] {A A' : Type}

/-- **C110.** Adjoint gradients with `rk4` in both passes are of first order for every field with two continuous derivatives,
time-dependent or not. -/
theorem C110_gradients {f : P → ℝ → X → X} (hf : ContDiff ℝ 2 fun q : P × ℝ × X => f q.1 q.2.1 q.2.2) {θ : P} {x0 : X}
    {dg : Option (ℝ → X → (X →L[ℝ] ℝ))} (hdg : ContDiff ℝ 1 fun p : ℝ × X => lossCot dg p.1 p.2)
    {G : ℝ → X → ℝ} (hGc : Continuous fun p : ℝ × X => G p.1 p.2) (hG : ∀ t x, HasFDerivAt (G t) (lossCot dg t x) x)
    {ℓ : ℝ → X → ℝ} (hℓd : ∀ t, Differentiable ℝ (ℓ t)) (hℓ : ContDiff ℝ 1 fun p : ℝ × X => fderiv ℝ (ℓ p.1) p.2) {t0 T : ℝ}
    (htT : t0 < T) (Y : P × X → ℝ → X) (hY : ∀ᶠ q in 𝓝 (θ, x0), Y q t0 = q.2 ∧ SolvesOn (f q.1) (Y q) t0 T)
    (args : A) (argsAdj : A') :
    CheckpointGradientOrder 1 (rk4Solver (Except PyErr) ℝ X A) args (rk4Solver (Except PyErr) ℝ (AdjS X P) A') argsAdj
      f θ dg G ℓ x0 t0 T Y := by
  have hf1 : ContDiff ℝ 1 fun q : P × ℝ × X => f q.1 q.2.1 q.2.2 := hf.of_le (by norm_num)
  have h := contDiff_adjointDynamics (f := f) (dg := dg) (n := 1) (by exact_mod_cast hf) θ (by exact_mod_cast hdg)
  refine checkpoint_gradients one_ne_zero hf1 hdg.continuous hGc hG hℓd hℓ htT Y hY ?_ (rk4_steppedBy _ argsAdj)
    fun R => rk4_one_step_time (f := fun s w => -adjointDynamics (smoothAdjoint f θ dg) (-s) w) ?_ _ _ R
  · exact ((C110_rk4 (f θ) (hf1.comp (by fun_prop : ContDiff ℝ 1 fun p : ℝ × X => ((θ, p.1, p.2) : P × ℝ × X))) t0 T
      args).near hY.self_of_nhds.2).converges
  · exact (h.comp (by fun_prop : ContDiff ℝ (1 : ℕ) fun p : ℝ × AdjS X P => ((-p.1, p.2) : ℝ × AdjS X P))).neg

end gradients

end Torchdyn
