import Mathlib.Analysis.SpecialFunctions.SmoothTransition
import Verif.Props.Tolerance
import Verif.Proofs.QuietStart

/-!
Property C120, one field for all tolerances: a smooth field on which both adaptive solvers see nothing, however small the
tolerances.
-/

set_option linter.unusedSectionVars false
set_option linter.unusedSimpArgs false

namespace Torchdyn

open Spec Set

variable {ι A : Type} [Fintype ι]

/-- A smooth bump of height `M` that vanishes before `9/20` and after `4/5`. -/
noncomputable def quietBump (M t : ℝ) : ℝ :=
  M * (Real.smoothTransition ((t - 9 / 20) * 10) * Real.smoothTransition ((4 / 5 - t) * 10))

theorem quietBump_smooth (M : ℝ) : ContDiff ℝ (⊤ : ℕ∞) (quietBump M) := by
  unfold quietBump
  refine contDiff_const.mul (ContDiff.mul ?_ ?_)
  · exact Real.smoothTransition.contDiff.comp (by fun_prop)
  · exact Real.smoothTransition.contDiff.comp (by fun_prop)

theorem quietBump_zero (M t : ℝ) (h : t ≤ 9 / 20 ∨ 4 / 5 ≤ t) : quietBump M t = 0 := by
  unfold quietBump
  rcases h with h | h
  · rw [Real.smoothTransition.zero_of_nonpos (by linarith)]; ring
  · rw [Real.smoothTransition.zero_of_nonpos (x := (4 / 5 - t) * 10) (by linarith)]; ring

theorem quietBump_one (M t : ℝ) (h : 11 / 20 ≤ t) (h' : t ≤ 7 / 10) : quietBump M t = M := by
  unfold quietBump
  rw [Real.smoothTransition.one_of_one_le (by linarith), Real.smoothTransition.one_of_one_le (by linarith)]
  ring

theorem quietBump_nonneg (M t : ℝ) (hM : 0 ≤ M) : 0 ≤ quietBump M t :=
  mul_nonneg hM (mul_nonneg (Real.smoothTransition.nonneg _) (Real.smoothTransition.nonneg _))

theorem quietBump_integral (M : ℝ) (hM : 0 ≤ M) : 3 / 20 * M ≤ ∫ t in (0 : ℝ)..1, quietBump M t := by
  have hc : Continuous (quietBump M) := (quietBump_smooth M).continuous
  have h1 : ∫ t in (11 / 20 : ℝ)..(7 / 10), quietBump M t = 3 / 20 * M := by
    rw [intervalIntegral.integral_congr (g := fun _ => M)]
    · rw [intervalIntegral.integral_const, smul_eq_mul]; ring
    · intro t ht
      rw [uIcc_of_le (by norm_num)] at ht
      exact quietBump_one M t ht.1 ht.2
  rw [← h1]
  exact intervalIntegral.integral_mono_interval (by norm_num) (by norm_num) (by norm_num)
    (Filter.Eventually.of_forall fun t => quietBump_nonneg M t hM) (hc.intervalIntegrable _ _)

/-- The run of both solvers on a bump that no step looks at. -/
theorem quiet_zero_run (tsit : Bool) (φ : ℝ → ℝ) (hφ : ∀ t, t ≤ 9 / 20 ∨ 4 / 5 ≤ t → φ t = 0) (args : A) (x : ι → ℝ) (atol rtol : ℝ) (saveAt : List ℝ) (sel : Finset ι) (fuel : ℕ) :
    odeint (fuel + 8) (pureField fun t _ _ => φ t) x [0, 1] (libSolver tsit ι A) atol rtol false false saveAt args sel
      = .ok (some ([0, 1], [x, x])) := by
  set g : ℝ → (ι → ℝ) → (ι → ℝ) := fun t _ _ => φ t with hg
  have hg0 : ∀ t y, (t ≤ 9 / 20 ∨ 4 / 5 ≤ t) → g t y = 0 := fun t y h => by
    funext i
    exact hφ t h
  have hadp : (libSolver tsit ι A).adaptive = true := by cases tsit <;> rfl
  obtain ⟨dt, -, hi, e⟩ := odeint_forward (fuel + 8) g x [] (libSolver tsit ι A) hadp atol rtol false false saveAt args sel
    (zero_le_one (α := ℝ))
  rw [hg0 0 x (by norm_num)] at hi e
  rw [initStep_quiet g x 0 _ atol rtol (hg0 _ x (by norm_num))] at hi
  cases hi
  rw [e]
  have hint : odeintInterp (libSolver tsit ι A) false = none := by cases tsit <;> rfl
  rw [hint]
  have hstep : ∀ t d, 0 ≤ d → 0 ≤ t → (t + d ≤ 9 / 20 ∨ (t = 111111 / 10 ^ 6 ∧ d = 888889 / 10 ^ 6)) → ∃ st,
      (odeintCfg (m := Except PyErr) (pureField g) (libSolver tsit ι A) args atol rtol sel none false).step x t d 0
        = .ok (.four 0 x 0 st) := by
    intro t d hd ht h
    refine ⟨[0, 0, 0, 0, 0, 0, 0], ?_⟩
    cases tsit with
    | false =>
      refine rk7_quiet (constructDopri5 ℝ) g x t d args fun i hi => hg0 _ x ?_
      rcases h with h | ⟨rfl, rfl⟩
      · left
        have : nth (constructDopri5 ℝ).c i ≤ 1 := by
          interval_cases i <;> simp [constructDopri5, nth] <;> norm_num
        nlinarith
      · interval_cases i <;> simp only [constructDopri5, nth] <;> norm_num
    | true =>
      refine rk7_quiet (constructTsit5 ℝ) g x t d args fun i hi => hg0 _ x ?_
      rcases h with h | ⟨rfl, rfl⟩
      · left
        have : nth (constructTsit5 ℝ).c i ≤ 1 := by
          interval_cases i <;> simp [constructTsit5, nth] <;> norm_num
        nlinarith
      · interval_cases i <;> simp only [constructTsit5, nth] <;> norm_num
  have herr : errorRatio sel atol rtol x x 0 = 0 := by
    simp [errorRatio, hairerNormOn, errorScaled]
  obtain ⟨st, hl⟩ := hstep (111111 / 10 ^ 6) (888889 / 10 ^ 6) (by norm_num) (by norm_num) (Or.inr ⟨rfl, rfl⟩)
  have := quiet_run (odeintCfg (m := Except PyErr) (pureField g) (libSolver tsit ι A) args atol rtol sel none false) rfl rfl
    (fun d => by cases tsit <;> simp [odeintCfg, adaptStep, libSolver, dopri5Solver, tsit5Solver]) x 0 0 herr 0
    (fun k hk => hstep _ _ (by positivity)
      (by
        have : (1 : ℝ) ≤ 10 ^ k := one_le_pow₀ (by norm_num)
        have : 0 ≤ ((10 : ℝ) ^ k - 1) / (9 * 10 ^ 6) := div_nonneg (by linarith) (by norm_num)
        linarith)
      (Or.inl (by
        have hp : (10 : ℝ) ^ k ≤ 10 ^ 5 := pow_le_pow_right₀ (by norm_num) (by omega)
        have h1 : ((10 : ℝ) ^ k - 1) / (9 * 10 ^ 6) ≤ 1 / 10 := by rw [div_le_iff₀ (by norm_num)]; linarith
        have h2 : (10 : ℝ) ^ k / 10 ^ 6 ≤ 1 / 10 := by rw [div_le_iff₀ (by norm_num)]; linarith
        linarith)))
    0 x 0 st (by rw [zero_add]; exact hl) (by show errorRatio sel atol rtol x x 0 ≤ 1; rw [herr]; norm_num) fuel
  rw [zero_add] at this
  exact this

theorem quietBump_run (tsit : Bool) (M : ℝ) (args : A) (x : ι → ℝ) (atol rtol : ℝ) (saveAt : List ℝ) (sel : Finset ι) (fuel : ℕ) :
    odeint (fuel + 8) (pureField fun t _ _ => quietBump M t) x [0, 1] (libSolver tsit ι A) atol rtol false false saveAt args sel
      = .ok (some ([0, 1], [x, x])) :=
  quiet_zero_run tsit (quietBump M) (quietBump_zero M) args x atol rtol saveAt sel fuel

/-- **C120, refuted (tightening the tolerances).** However large `E`, there is one smooth field, a function of `t` alone, on
which `odeint` over `[0, 1]` with `dopri5` and with `tsit5` returns the initial state as final state for *all* positive
tolerances at once (seven steps: the first is `10⁻⁶` and every following one is ten times longer, whatever the tolerances),
while every component of the solution grows by at least `E`. So making the tolerances smaller need not bring the result
nearer to the solution. -/
theorem C120_all_tolerances_refuted (E : ℝ) :
    ∃ φ : ℝ → ℝ, ContDiff ℝ (⊤ : ℕ∞) φ ∧
      (∀ (ι A : Type) [Fintype ι] (tsit : Bool) (args : A) (x : ι → ℝ) (atol rtol : ℝ), 0 < atol → 0 ≤ rtol →
        ∀ (saveAt : List ℝ) (sel : Finset ι) (fuel : ℕ), 8 ≤ fuel →
          odeint fuel (pureField fun t _ _ => φ t) x [0, 1] (libSolver tsit ι A) atol rtol false false saveAt args sel
            = .ok (some ([0, 1], [x, x]))) ∧
      ∀ (ι : Type) [Fintype ι] (x : ι → ℝ) (y : ℝ → ι → ℝ), y 0 = x →
        (∀ t ∈ Icc (0 : ℝ) 1, HasDerivWithinAt y (fun _ => φ t) (Icc 0 1) t) → ∀ i, x i + E ≤ y 1 i := by
  refine ⟨quietBump (20 / 3 * max E 0), quietBump_smooth _, ?_, ?_⟩
  · intro ι A _ tsit args x atol rtol _ _ saveAt sel fuel hf
    obtain ⟨n, rfl⟩ := Nat.exists_eq_add_of_le hf
    rw [add_comm 8 n]
    exact quietBump_run tsit _ args x atol rtol saveAt sel n
  · intro ι _ x y hy0 hy i
    have hyi : ∀ u ∈ Icc (0 : ℝ) 1, HasDerivWithinAt (fun s => y s i) (quietBump (20 / 3 * max E 0) u) (Icc 0 1) u :=
      fun u hu => (hasDerivWithinAt_pi.1 (hy u hu)) i
    have h1 := intervalIntegral.integral_eq_sub_of_hasDerivAt_of_le zero_le_one
      (fun u hu => (hyi u hu).continuousWithinAt)
      (fun u hu => (hyi u ⟨hu.1.le, hu.2.le⟩).hasDerivAt (Icc_mem_nhds hu.1 hu.2))
      ((quietBump_smooth _).continuous.intervalIntegrable 0 1)
    have h2 := quietBump_integral (20 / 3 * max E 0) (by positivity)
    rw [h1, hy0] at h2
    have := le_max_left E 0
    linarith

end Torchdyn
