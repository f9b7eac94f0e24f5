import Mathlib.Analysis.SpecialFunctions.Exponential
import Verif.Props.Order

/-!
C82: the attribute `order` of the fixed-step solvers is their exact order of convergence.
-/

namespace Torchdyn

open Spec Set

/-- A method that advances `x' = x` by the Taylor polynomial of degree `p` is not of order `p + 1`. -/
theorem not_higher_order {solver : Solver (Except PyErr) ℝ ℝ Unit} {p : ℕ}
    (hstep : ∀ φ, SteppedBy solver (fun _ x => x) () φ →
      ∀ x t h : ℝ, φ x t h = (∑ k ∈ Finset.range (p + 1), h ^ k / k.factorial) * x) {q : ℕ} (hq : p < q) :
    ¬ ConvergesWithOrder q solver () (fun _ x => x) Real.exp 0 1 := by
  rintro ⟨C, δ, hδ, H⟩
  obtain ⟨N, hN⟩ := exists_nat_gt (max (1 / δ) ((p + 1).factorial * |C|))
  have hN1 : 1 / δ < N := (le_max_left _ _).trans_lt hN
  have hN2 : (p + 1).factorial * |C| < N := (le_max_right _ _).trans_lt hN
  have hNpos : (0 : ℝ) < N := (by positivity : (0 : ℝ) ≤ (p + 1).factorial * |C|).trans_lt hN2
  have hN0 : 0 < N := by exact_mod_cast hNpos
  obtain ⟨t1, rest, hg⟩ := unitGrid_two N hN0
  have hget : ∀ {k : ℕ} {t : ℝ}, (unitGrid N)[k]? = some t → k ≤ N ∧ t = k / N := by
    intro k t h
    by_cases hk : k ≤ N
    · rw [unitGrid_get hk] at h
      exact ⟨hk, (Option.some.inj h).symm⟩
    · rw [unitGrid_none (by omega)] at h
      cases h
  obtain ⟨φ, sol, hφ, htraj, -, hb⟩ := H t1 rest (1 / N)
    (by rw [div_le_iff₀ hNpos]; rw [div_lt_iff₀ hδ] at hN1; linarith)
    (by
      rw [← hg, unitGrid, List.pairwise_map]
      refine List.pairwise_lt_range.imp fun hab => ?_
      have : ((_ : ℕ) : ℝ) < ((_ : ℕ) : ℝ) := Nat.cast_lt.2 hab
      gcongr)
    (by
      rw [← hg]
      intro t ht
      obtain ⟨k, hk⟩ := List.mem_iff_getElem?.1 ht
      obtain ⟨h1, rfl⟩ := hget hk
      rw [div_le_one hNpos]
      exact_mod_cast h1)
    (by
      rw [← hg]
      intro k t t' ht ht'
      obtain ⟨-, rfl⟩ := hget ht
      obtain ⟨-, rfl⟩ := hget ht'
      rw [← sub_div]
      simp)
  rw [← hg] at htraj hb
  set h : ℝ := 1 / N with hh
  have hpos : 0 < h := by positivity
  set r : ℝ := ∑ k ∈ Finset.range (p + 1), h ^ k / k.factorial with hr
  have hr1 : 1 ≤ r := by
    rw [hr, Finset.sum_range_succ']
    have : 0 ≤ ∑ k ∈ Finset.range p, h ^ (k + 1) / (k + 1).factorial := Finset.sum_nonneg fun k _ => by positivity
    simpa using this
  have hsol : ∀ k ≤ N, sol[k]? = some (r ^ k) := by
    intro k
    induction k with
    | zero => intro _; rw [htraj.start]; simp
    | succ k ih =>
      intro hk
      rw [htraj.next k _ _ _ (unitGrid_get (by omega)) (unitGrid_get hk) (ih (by omega)), hstep φ hφ]
      have : ((k + 1 : ℕ) : ℝ) / N - (k : ℕ) / N = h := by rw [← sub_div]; simp [hh]
      rw [this, ← hr, pow_succ, mul_comm]
  have hexp : r + h ^ (p + 1) / (p + 1).factorial ≤ Real.exp h := by
    rw [hr, ← Finset.sum_range_succ]
    exact Real.sum_le_exp_of_nonneg hpos.le _
  have hd0 : 0 ≤ h ^ (p + 1) / (p + 1).factorial := by positivity
  have hgap : ∀ k : ℕ, r ^ k + k * (h ^ (p + 1) / (p + 1).factorial) ≤ Real.exp h ^ k := by
    intro k
    induction k with
    | zero => simp
    | succ k ih =>
      have h1 : (r ^ k + k * (h ^ (p + 1) / (p + 1).factorial)) * (r + h ^ (p + 1) / (p + 1).factorial) ≤
          Real.exp h ^ k * Real.exp h :=
        mul_le_mul ih hexp (by linarith) (pow_nonneg (Real.exp_nonneg _) _)
      have hrk : 1 ≤ r ^ k := one_le_pow₀ hr1
      rw [pow_succ r k, pow_succ (Real.exp h) k]
      push_cast
      generalize h ^ (p + 1) / (p + 1).factorial = d at *
      have a1 : d ≤ r ^ k * d := le_mul_of_one_le_left hd0 hrk
      have a2 : k * d ≤ k * d * r := le_mul_of_one_le_right (by positivity) hr1
      have a3 : 0 ≤ k * d * d := by positivity
      linarith [h1, a1, a2, a3, (by ring : (r ^ k + k * d) * (r + d) = r ^ k * r + r ^ k * d + k * d * r + k * d * d)]
  have hfin := hb N 1 (r ^ N) (by rw [unitGrid_get le_rfl, div_self hNpos.ne']) (hsol N le_rfl)
  have hNh : Real.exp h ^ N = Real.exp 1 := by
    rw [← Real.exp_nat_mul, hh, mul_one_div_cancel hNpos.ne']
  have hNd : N * (h ^ (p + 1) / (p + 1).factorial) = h ^ p / (p + 1).factorial := by
    have : (N : ℝ) * h = 1 := by rw [hh, mul_one_div_cancel hNpos.ne']
    rw [pow_succ]
    linear_combination h ^ p / (p + 1).factorial * this
  have hlow := hgap N
  rw [hNh, hNd] at hlow
  have hq0 : 0 ≤ h ^ p / (p + 1).factorial := by positivity
  rw [Real.norm_eq_abs, abs_sub_comm, abs_of_nonneg (by linarith)] at hfin
  have hle1 : h ≤ 1 := by rw [hh, div_le_one hNpos]; exact_mod_cast hN0
  have hfac : (0 : ℝ) < (p + 1).factorial := by positivity
  have h2 : h ^ p / (p + 1).factorial ≤ |C| * h ^ (p + 1) := by
    calc h ^ p / (p + 1).factorial ≤ Real.exp 1 - r ^ N := by linarith
      _ ≤ C * h ^ q := hfin
      _ ≤ |C| * h ^ q := mul_le_mul_of_nonneg_right (le_abs_self C) (by positivity)
      _ ≤ |C| * h ^ (p + 1) :=
        mul_le_mul_of_nonneg_left (pow_le_pow_of_le_one hpos.le hle1 hq) (abs_nonneg C)
  rw [div_le_iff₀ hfac, pow_succ] at h2
  have hp : 0 < h ^ p := pow_pos hpos p
  have h3 : 1 ≤ (p + 1).factorial * |C| * h := by
    refine le_of_mul_le_mul_left ?_ hp
    linarith [h2]
  rw [hh, mul_one_div, le_div_iff₀ hNpos] at h3
  linarith

/-- Order `p` includes every lower order. -/
theorem ConvergesWithOrder.mono {V A : Type} [NormedAddCommGroup V] [NormedSpace ℝ V] {p q : ℕ} (hpq : q ≤ p)
    {solver : Solver (Except PyErr) ℝ V A} {args : A} {f : ℝ → V → V} {y : ℝ → V} {t0 T : ℝ}
    (H : ConvergesWithOrder p solver args f y t0 T) : ConvergesWithOrder q solver args f y t0 T := by
  obtain ⟨C, δ, hδ, H⟩ := H
  refine ⟨|C|, min δ 1, lt_min hδ one_pos, fun t1 rest h hh hinc hT hgap => ?_⟩
  obtain ⟨φ, sol, h1, h2, h3, h4⟩ := H t1 rest h (hh.trans (min_le_left _ _)) hinc hT hgap
  have hpos : 0 < h := by
    have a := List.pairwise_cons.1 hinc |>.1 t1 (by simp)
    have b := hgap 0 t0 t1 rfl rfl
    linarith
  refine ⟨φ, sol, h1, h2, h3, fun k t x ht hx => (h4 k t x ht hx).trans ?_⟩
  calc C * h ^ p ≤ |C| * h ^ p := mul_le_mul_of_nonneg_right (le_abs_self C) (by positivity)
    _ ≤ |C| * h ^ q :=
      mul_le_mul_of_nonneg_left (pow_le_pow_of_le_one hpos.le (hh.trans (min_le_right _ _)) hpq) (abs_nonneg C)

/-- **C82.** The `order` that the fixed-step solvers declare is exactly their order of convergence: on `x' = x`, `x(0) = 1`, over
`[0, 1]`, each converges with order `q` if and only if `q` is at most its attribute `order`. -/
theorem C82_declared_order_exact (solver : Solver (Except PyErr) ℝ ℝ Unit)
    (hsolver : solver ∈ [eulerSolver (Except PyErr) ℝ ℝ Unit, midpointSolver (Except PyErr) ℝ ℝ Unit,
      rk4Solver (Except PyErr) ℝ ℝ Unit]) (q : ℕ) :
    ConvergesWithOrder q solver () (fun _ x => x) Real.exp 0 1 ↔ q ≤ solver.order := by
  have hy : ∀ t ∈ Icc (0 : ℝ) 1, HasDerivWithinAt Real.exp (Real.exp t) (Icc 0 1) t := fun t _ =>
    (Real.hasDerivAt_exp t).hasDerivWithinAt
  have hlip : ∀ x x' : ℝ, ‖x - x'‖ ≤ 1 * ‖x - x'‖ := fun x x' => by rw [one_mul]
  have key : ∀ {s : Solver (Except PyErr) ℝ ℝ Unit} {ψ : ℝ → ℝ → ℝ → ℝ}, SteppedBy s (fun _ x => x) () ψ →
      (∀ x t h, ψ x t h = (∑ k ∈ Finset.range (s.order + 1), h ^ k / k.factorial) * x) →
      ConvergesWithOrder s.order s () (fun _ x => x) Real.exp 0 1 →
      (ConvergesWithOrder q s () (fun _ x => x) Real.exp 0 1 ↔ q ≤ s.order) := by
    intro s ψ hψ hT hconv
    refine ⟨fun H => ?_, fun h => hconv.mono h⟩
    by_contra hq
    refine not_higher_order (p := s.order) (fun φ hφ x t h => ?_) (not_le.1 hq) H
    obtain ⟨_, _, e⟩ := hφ x t h
    obtain ⟨_, _, e'⟩ := hψ x t h
    rw [e] at e'
    rw [← hT x t h]
    injection e' with e'
    injection e'
  simp only [List.mem_cons, List.not_mem_nil, or_false] at hsolver
  rcases hsolver with rfl | rfl | rfl
  · refine key (euler_steppedBy _ ()) (fun x t h => ?_)
      (C82_euler_converges (fun _ x => x) (by fun_prop) _ 0 1 1 zero_le_one (fun _ => hlip) hy ())
    simp [eulerSolver, Finset.sum_range_succ]
    ring
  · refine key (midpoint_steppedBy _ ()) (fun x t h => ?_)
      (C82_midpoint_converges (fun _ x => x) (by fun_prop) _ 0 1 1 zero_le_one (fun _ => hlip) hy ())
    simp [midpointSolver, Finset.sum_range_succ, Nat.factorial]
    ring
  · refine key (rk4_steppedBy _ ()) (fun x t h => ?_)
      (C82_rk4_converges_partial (fun x => x) (by fun_prop) _ 0 1 1 zero_le_one hlip hy ())
    simp [rk4Solver, rk4Update, rk4Step, constructRk4, pureField, firstStage, StepOut.newState, pure, bind, Finset.sum_range_succ,
      Nat.factorial, nth, nth2]
    ring

end Torchdyn
