import Verif.Props.AdaptiveTermination
import Mathlib.Analysis.SpecialFunctions.Exp
import Mathlib.Analysis.Normed.Group.Constructions
import Mathlib.Analysis.Normed.Module.Basic

/-!
C27 for fields of linear growth (in particular every Lipschitz field on a bounded time interval).
-/

set_option linter.unusedSectionVars false
set_option linter.unusedSimpArgs false

namespace Torchdyn

open Spec

variable {ι A : Type} [Fintype ι] {solver : Solver (Except PyErr) ℝ (ι → ℝ) A} {args : A}

/-- Bounds of one step of size at most `H` for fields of linear growth `‖f t x‖ ≤ a + L ‖x‖`: update and error estimate are at
most `Q dt (a + L ‖x‖)`, with `Q` depending on `L` and `H` only. -/
def GrowthBounded (solver : Solver (Except PyErr) ℝ (ι → ℝ) A) (args : A) : Prop :=
  ∀ L H : ℝ, 0 ≤ L → 0 ≤ H → ∃ Q, 0 ≤ Q ∧ ∀ (f : ℝ → (ι → ℝ) → ι → ℝ) (a : ℝ), 0 ≤ a → (∀ t x, ‖f t x‖ ≤ a + L * ‖x‖) →
    ∀ x t dt k1 k x' e st, ‖k1‖ ≤ a + L * ‖x‖ → 0 < dt → dt ≤ H →
      solver.step (fun t x => .ok (f t x)) x t dt (some k1) args = .ok (.four k x' e st) →
      ‖x' - x‖ ≤ Q * dt * (a + L * ‖x‖) ∧ ‖e‖ ≤ Q * dt * (a + L * ‖x‖)

/-- A common bound of all coefficients of a tableau. -/
theorem tableau_bound (tab : Tableau ℝ) : ∃ C, 0 ≤ C ∧ (∀ i < 7, ∀ j < 7, |nth2 tab.a i j| ≤ C) ∧ (∀ i < 7, |nth tab.bsol i| ≤ C) ∧
    ∀ i < 7, |nth tab.berr i| ≤ C := by
  have h1 : 0 ≤ ∑ i ∈ Finset.range 7, ∑ j ∈ Finset.range 7, |nth2 tab.a i j| :=
    Finset.sum_nonneg fun _ _ => Finset.sum_nonneg fun _ _ => abs_nonneg _
  have h2 : 0 ≤ ∑ i ∈ Finset.range 7, |nth tab.bsol i| := Finset.sum_nonneg fun _ _ => abs_nonneg _
  have h3 : 0 ≤ ∑ i ∈ Finset.range 7, |nth tab.berr i| := Finset.sum_nonneg fun _ _ => abs_nonneg _
  refine ⟨∑ i ∈ Finset.range 7, ∑ j ∈ Finset.range 7, |nth2 tab.a i j| + ∑ i ∈ Finset.range 7, |nth tab.bsol i| +
    ∑ i ∈ Finset.range 7, |nth tab.berr i|, by positivity, fun i hi j hj => ?_, fun i hi => ?_, fun i hi => ?_⟩
  · have a := Finset.single_le_sum (f := fun j => |nth2 tab.a i j|) (fun _ _ => abs_nonneg _) (Finset.mem_range.2 hj)
    have b := Finset.single_le_sum (f := fun i => ∑ j ∈ Finset.range 7, |nth2 tab.a i j|)
      (fun _ _ => Finset.sum_nonneg fun _ _ => abs_nonneg _) (Finset.mem_range.2 hi)
    linarith
  · have a := Finset.single_le_sum (f := fun i => |nth tab.bsol i|) (fun _ _ => abs_nonneg _) (Finset.mem_range.2 hi)
    linarith
  · have a := Finset.single_le_sum (f := fun i => |nth tab.berr i|) (fun _ _ => abs_nonneg _) (Finset.mem_range.2 hi)
    linarith

/-- Linear combinations of at most seven bounded vectors. -/
theorem norm_combination_le {V : Type} [SeminormedAddCommGroup V] [NormedSpace ℝ V] (l : List (ℝ × V)) (C B : ℝ) (hC : 0 ≤ C)
    (hB : 0 ≤ B) (hl : l.length ≤ 7) (h : ∀ p ∈ l, |p.1| ≤ C ∧ ‖p.2‖ ≤ B) : ‖(l.map fun p => p.1 • p.2).sum‖ ≤ 7 * (C * B) := by
  have : ∀ l : List (ℝ × V), (∀ p ∈ l, |p.1| ≤ C ∧ ‖p.2‖ ≤ B) → ‖(l.map fun p => p.1 • p.2).sum‖ ≤ l.length * (C * B) := by
    intro l
    induction l with
    | nil => simp
    | cons p l ih =>
      intro h
      simp only [List.map_cons, List.sum_cons, List.length_cons]
      push_cast
      refine (norm_add_le _ _).trans ?_
      have h1 := ih fun q hq => h q (List.mem_cons_of_mem _ hq)
      obtain ⟨h2, h3⟩ := h p List.mem_cons_self
      have h4 : ‖p.1 • p.2‖ ≤ C * B := by
        rw [norm_smul, Real.norm_eq_abs]
        exact mul_le_mul h2 h3 (norm_nonneg _) hC
      linarith
  refine (this l h).trans (mul_le_mul_of_nonneg_right ?_ (mul_nonneg hC hB))
  exact_mod_cast hl

theorem rk7_growthBounded (tab : Tableau ℝ) (args : A) (solver : Solver (Except PyErr) ℝ (ι → ℝ) A)
    (hstep : ∀ f x t dt k1, solver.step f x t dt k1 args = rk7Step tab f x t dt k1 args) : GrowthBounded solver args := by
  intro L H hL hH
  obtain ⟨C, hC, ha, hb, he⟩ := tableau_bound tab
  set c := 7 * L * H * C with hc
  have hc0 : 0 ≤ c := by positivity
  refine ⟨7 * C * (1 + c) ^ 6, by positivity, ?_⟩
  intro f a ha0 hf x t dt k1 k x' e st hk1 hdt hdtH h
  set w := a + L * ‖x‖ with hw
  have hw0 : 0 ≤ w := by positivity
  -- one stage
  have stage : ∀ (n : ℕ) (l : List (ℝ × (ι → ℝ))) (s : ℝ), l.length ≤ 7 →
      (∀ p ∈ l, |p.1| ≤ C ∧ ‖p.2‖ ≤ (1 + c) ^ n * w) →
      ‖f s (x + dt • (l.map fun p => p.1 • p.2).sum)‖ ≤ (1 + c) ^ (n + 1) * w := by
    intro n l s hl hp
    have hB : 0 ≤ (1 + c) ^ n * w := by positivity
    have h1 := norm_combination_le l C _ hC hB hl hp
    have h2 : ‖x + dt • (l.map fun p => p.1 • p.2).sum‖ ≤ ‖x‖ + H * (7 * (C * ((1 + c) ^ n * w))) := by
      refine (norm_add_le _ _).trans (add_le_add le_rfl ?_)
      rw [norm_smul, Real.norm_eq_abs, abs_of_pos hdt]
      exact mul_le_mul hdtH h1 (norm_nonneg _) hH
    refine (hf _ _).trans ?_
    have h3 := mul_le_mul_of_nonneg_left h2 hL
    have h4 : (1 : ℝ) ≤ (1 + c) ^ n := one_le_pow₀ (by linarith)
    have h5 : w ≤ (1 + c) ^ n * w := le_mul_of_one_le_left hw0 h4
    have h6 : (1 + c) ^ (n + 1) * w = (1 + c) ^ n * w + L * (H * (7 * (C * ((1 + c) ^ n * w)))) := by
      rw [hc, pow_succ]; ring
    rw [h6]
    linarith
  have mono : ∀ {n m : ℕ} {y : ι → ℝ}, n ≤ m → ‖y‖ ≤ (1 + c) ^ n * w → ‖y‖ ≤ (1 + c) ^ m * w := by
    intro n m y hnm hy
    refine hy.trans (mul_le_mul_of_nonneg_right (pow_le_pow_right₀ (by linarith) hnm) hw0)
  rw [hstep] at h
  simp only [rk7Step, firstStage, pureField, bind, Except.bind, pure, Except.pure] at h
  set k2 := f (t + nth tab.c 0 * dt) (x + (dt * nth2 tab.a 0 0) • k1) with hk2
  set k3 := f (t + nth tab.c 1 * dt) (x + dt • (nth2 tab.a 1 0 • k1 + nth2 tab.a 1 1 • k2)) with hk3
  set k4 := f (t + nth tab.c 2 * dt)
    (x + (dt * nth2 tab.a 2 0) • k1 + (dt * nth2 tab.a 2 1) • k2 + (dt * nth2 tab.a 2 2) • k3) with hk4
  set k5 := f (t + nth tab.c 3 * dt)
    (x + (dt * nth2 tab.a 3 0) • k1 + (dt * nth2 tab.a 3 1) • k2 + (dt * nth2 tab.a 3 2) • k3
      + (dt * nth2 tab.a 3 3) • k4) with hk5
  set k6 := f (t + nth tab.c 4 * dt)
    (x + (dt * nth2 tab.a 4 0) • k1 + (dt * nth2 tab.a 4 1) • k2 + (dt * nth2 tab.a 4 2) • k3
      + (dt * nth2 tab.a 4 3) • k4 + (dt * nth2 tab.a 4 4) • k5) with hk6
  set k7 := f (t + nth tab.c 5 * dt)
    (x + (dt * nth2 tab.a 5 0) • k1 + (dt * nth2 tab.a 5 1) • k2 + (dt * nth2 tab.a 5 2) • k3
      + (dt * nth2 tab.a 5 3) • k4 + (dt * nth2 tab.a 5 4) • k5 + (dt * nth2 tab.a 5 5) • k6) with hk7
  have b1 : ‖k1‖ ≤ (1 + c) ^ 0 * w := by simpa using hk1
  have b2 : ‖k2‖ ≤ (1 + c) ^ 1 * w := by
    have := stage 0 [(nth2 tab.a 0 0, k1)] (t + nth tab.c 0 * dt) (by simp) (by
      simp only [List.mem_cons, List.not_mem_nil, or_false, forall_eq]
      exact ⟨ha _ (by omega) _ (by omega), b1⟩)
    convert this using 3
    simp only [List.map_cons, List.map_nil, List.sum_cons, List.sum_nil]
    module
  have b3 : ‖k3‖ ≤ (1 + c) ^ 2 * w := by
    have := stage 1 [(nth2 tab.a 1 0, k1), (nth2 tab.a 1 1, k2)] (t + nth tab.c 1 * dt) (by simp) (by
      simp only [List.mem_cons, List.not_mem_nil, or_false, forall_eq_or_imp, forall_eq]
      exact ⟨⟨ha _ (by omega) _ (by omega), mono (by omega) b1⟩, ⟨ha _ (by omega) _ (by omega), mono (by omega) b2⟩⟩)
    convert this using 3
    simp only [List.map_cons, List.map_nil, List.sum_cons, List.sum_nil]
    module
  have b4 : ‖k4‖ ≤ (1 + c) ^ 3 * w := by
    have := stage 2 [(nth2 tab.a 2 0, k1), (nth2 tab.a 2 1, k2), (nth2 tab.a 2 2, k3)] (t + nth tab.c 2 * dt) (by simp) (by
      simp only [List.mem_cons, List.not_mem_nil, or_false, forall_eq_or_imp, forall_eq]
      exact ⟨⟨ha _ (by omega) _ (by omega), mono (by omega) b1⟩, ⟨ha _ (by omega) _ (by omega), mono (by omega) b2⟩,
        ⟨ha _ (by omega) _ (by omega), mono (by omega) b3⟩⟩)
    convert this using 3
    simp only [List.map_cons, List.map_nil, List.sum_cons, List.sum_nil]
    module
  have b5 : ‖k5‖ ≤ (1 + c) ^ 4 * w := by
    have := stage 3 [(nth2 tab.a 3 0, k1), (nth2 tab.a 3 1, k2), (nth2 tab.a 3 2, k3), (nth2 tab.a 3 3, k4)]
      (t + nth tab.c 3 * dt) (by simp) (by
      simp only [List.mem_cons, List.not_mem_nil, or_false, forall_eq_or_imp, forall_eq]
      exact ⟨⟨ha _ (by omega) _ (by omega), mono (by omega) b1⟩, ⟨ha _ (by omega) _ (by omega), mono (by omega) b2⟩,
        ⟨ha _ (by omega) _ (by omega), mono (by omega) b3⟩, ⟨ha _ (by omega) _ (by omega), mono (by omega) b4⟩⟩)
    convert this using 3
    simp only [List.map_cons, List.map_nil, List.sum_cons, List.sum_nil]
    module
  have b6 : ‖k6‖ ≤ (1 + c) ^ 5 * w := by
    have := stage 4 [(nth2 tab.a 4 0, k1), (nth2 tab.a 4 1, k2), (nth2 tab.a 4 2, k3), (nth2 tab.a 4 3, k4),
      (nth2 tab.a 4 4, k5)] (t + nth tab.c 4 * dt) (by simp) (by
      simp only [List.mem_cons, List.not_mem_nil, or_false, forall_eq_or_imp, forall_eq]
      exact ⟨⟨ha _ (by omega) _ (by omega), mono (by omega) b1⟩, ⟨ha _ (by omega) _ (by omega), mono (by omega) b2⟩,
        ⟨ha _ (by omega) _ (by omega), mono (by omega) b3⟩, ⟨ha _ (by omega) _ (by omega), mono (by omega) b4⟩,
        ⟨ha _ (by omega) _ (by omega), mono (by omega) b5⟩⟩)
    convert this using 3
    simp only [List.map_cons, List.map_nil, List.sum_cons, List.sum_nil]
    module
  have b7 : ‖k7‖ ≤ (1 + c) ^ 6 * w := by
    have := stage 5 [(nth2 tab.a 5 0, k1), (nth2 tab.a 5 1, k2), (nth2 tab.a 5 2, k3), (nth2 tab.a 5 3, k4),
      (nth2 tab.a 5 4, k5), (nth2 tab.a 5 5, k6)] (t + nth tab.c 5 * dt) (by simp) (by
      simp only [List.mem_cons, List.not_mem_nil, or_false, forall_eq_or_imp, forall_eq]
      exact ⟨⟨ha _ (by omega) _ (by omega), mono (by omega) b1⟩, ⟨ha _ (by omega) _ (by omega), mono (by omega) b2⟩,
        ⟨ha _ (by omega) _ (by omega), mono (by omega) b3⟩, ⟨ha _ (by omega) _ (by omega), mono (by omega) b4⟩,
        ⟨ha _ (by omega) _ (by omega), mono (by omega) b5⟩, ⟨ha _ (by omega) _ (by omega), mono (by omega) b6⟩⟩)
    convert this using 3
    simp only [List.map_cons, List.map_nil, List.sum_cons, List.sum_nil]
    module
  simp only [Except.ok.injEq, StepOut.four.injEq] at h
  obtain ⟨-, hx', he', -⟩ := h
  have final : ∀ (l : List (ℝ × (ι → ℝ))), l.length ≤ 7 → (∀ p ∈ l, |p.1| ≤ C ∧ ‖p.2‖ ≤ (1 + c) ^ 6 * w) →
      ‖dt • (l.map fun p => p.1 • p.2).sum‖ ≤ 7 * C * (1 + c) ^ 6 * dt * w := by
    intro l hl hp
    rw [norm_smul, Real.norm_eq_abs, abs_of_pos hdt]
    have := mul_le_mul_of_nonneg_left (norm_combination_le l C _ hC (by positivity) hl hp) hdt.le
    refine this.trans (le_of_eq ?_)
    ring
  constructor
  · have := final [(nth tab.bsol 0, k1), (nth tab.bsol 1, k2), (nth tab.bsol 2, k3), (nth tab.bsol 3, k4),
      (nth tab.bsol 4, k5), (nth tab.bsol 5, k6)] (by simp) (by
      simp only [List.mem_cons, List.not_mem_nil, or_false, forall_eq_or_imp, forall_eq]
      exact ⟨⟨hb _ (by omega), mono (by omega) b1⟩, ⟨hb _ (by omega), mono (by omega) b2⟩,
        ⟨hb _ (by omega), mono (by omega) b3⟩, ⟨hb _ (by omega), mono (by omega) b4⟩,
        ⟨hb _ (by omega), mono (by omega) b5⟩, ⟨hb _ (by omega), mono (by omega) b6⟩⟩)
    rw [← hx']
    convert this using 2
    simp only [List.map_cons, List.map_nil, List.sum_cons, List.sum_nil]
    module
  · have := final [(nth tab.berr 0, k1), (nth tab.berr 1, k2), (nth tab.berr 2, k3), (nth tab.berr 3, k4),
      (nth tab.berr 4, k5), (nth tab.berr 5, k6), (nth tab.berr 6, k7)] (by simp) (by
      simp only [List.mem_cons, List.not_mem_nil, or_false, forall_eq_or_imp, forall_eq]
      exact ⟨⟨he _ (by omega), mono (by omega) b1⟩, ⟨he _ (by omega), mono (by omega) b2⟩,
        ⟨he _ (by omega), mono (by omega) b3⟩, ⟨he _ (by omega), mono (by omega) b4⟩,
        ⟨he _ (by omega), mono (by omega) b5⟩, ⟨he _ (by omega), mono (by omega) b6⟩,
        ⟨he _ (by omega), mono (by omega) b7⟩⟩)
    rw [← he']
    convert this using 2
    simp only [List.map_cons, List.map_nil, List.sum_cons, List.sum_nil]
    module

/-- **C27** for fields of linear growth, for any solver object with bounded steps: adaptive `odeint` returns. In particular
for every field that is Lipschitz in the state uniformly in time and bounded in time at one state. -/
theorem C27_terminates_linear_growth (hs : FsalSolver solver args) (hg : GrowthBounded solver args)
    (hord : 1 ≤ solver.order) (h1 : solver.safety = 9 / 10) (h2 : solver.minFactor = 1 / 5)
    (h3 : solver.maxFactor = 10)
    (f : ℝ → (ι → ℝ) → ι → ℝ) (a L : ℝ) (ha0 : 0 ≤ a) (hL : 0 ≤ L) (hf : ∀ t x, ‖f t x‖ ≤ a + L * ‖x‖) (x : ι → ℝ)
    (t0 t1 : ℝ) (rest : List ℝ) (hinc : Increasing (t0 :: t1 :: rest)) (atol rtol : ℝ)
    (ha : 0 < atol) (hr : 0 ≤ rtol) (ui rae : Bool) (saveAt : List ℝ) (sel : Finset ι) :
    ∃ fuel ts xs, odeint fuel (pureField f) x (t0 :: t1 :: rest) solver atol rtol ui rae saveAt args sel
      = .ok (some (ts, xs)) := by
  obtain ⟨T, hT⟩ : ∃ T, (t1 :: rest).getLast? = some T := ⟨_, List.getLast?_eq_some_getLast (by simp)⟩
  have htT : t0 < T := (List.pairwise_cons.1 hinc).1 T (List.mem_of_getLast? hT)
  obtain ⟨Q, hQ, hstep⟩ := hg L (T - t0) hL (by linarith)
  set w0 := a + L * ‖x‖ with hw0
  have hw0' : 0 ≤ w0 := by positivity
  set W := w0 * Real.exp (L * Q * (T - t0)) with hW
  have hW0 : 0 ≤ W := by positivity
  set D := Q * W + 1 with hD
  have hDpos : 0 < D := by positivity
  obtain ⟨dt, hdt, hinit, -⟩ := odeint_forward 0 f x rest solver hs.adaptive atol rtol ui rae saveAt
    args sel (List.pairwise_cons.1 hinc |>.1 t1 (by simp)).le
  obtain ⟨fuel, ts, xs, h⟩ := adaptive_terminates_good hs hord h1 h2 h3 f hinc hT atol rtol (odeintInterp solver ui) rae sel
    (δ := min (T - t0) (atol / (2 * D))) (lt_min (by linarith) (by positivity))
    (fun x t k => ‖k‖ ≤ a + L * ‖x‖ ∧ a + L * ‖x‖ ≤ w0 * Real.exp (L * Q * (t - t0)))
    (by
      rintro x t dt k1 x' e st ⟨hk, hx⟩ ht0 hdt hle - hst
      refine ⟨hf _ _, ?_⟩
      have hb := (hstep f a ha0 hf x t dt k1 _ x' e st hk hdt (by linarith) hst).1
      have hn : ‖x'‖ ≤ ‖x‖ + Q * dt * (a + L * ‖x‖) := by
        have := norm_le_norm_add_norm_sub' x' x
        linarith
      have hexp : 1 + L * Q * dt ≤ Real.exp (L * Q * dt) := by
        have := Real.add_one_le_exp (L * Q * dt); linarith
      have hwx : 0 ≤ a + L * ‖x‖ := by positivity
      calc a + L * ‖x'‖ ≤ a + L * (‖x‖ + Q * dt * (a + L * ‖x‖)) := by
            have := mul_le_mul_of_nonneg_left hn hL; linarith
        _ = (a + L * ‖x‖) * (1 + L * Q * dt) := by ring
        _ ≤ (a + L * ‖x‖) * Real.exp (L * Q * dt) := mul_le_mul_of_nonneg_left hexp hwx
        _ ≤ w0 * Real.exp (L * Q * (t - t0)) * Real.exp (L * Q * dt) :=
            mul_le_mul_of_nonneg_right hx (Real.exp_pos _).le
        _ = w0 * Real.exp (L * Q * (t + dt - t0)) := by
            rw [mul_assoc, ← Real.exp_add]; congr 2; ring)
    (by
      rintro x t dt k1 k x' e st ⟨hk, hx⟩ ht0 htT' hdt hle hst
      have hb := (hstep f a ha0 hf x t dt k1 k x' e st hk hdt (hle.trans (min_le_left _ _)) hst).2
      have hWx : a + L * ‖x‖ ≤ W := by
        refine hx.trans (mul_le_mul_of_nonneg_left (Real.exp_le_exp.2 ?_) hw0')
        have : 0 ≤ L * Q := by positivity
        nlinarith
      have hb' : ∀ i, |e i| ≤ D * dt := by
        intro i
        refine (norm_le_pi_norm e i).trans (hb.trans ?_)
        have : Q * dt * (a + L * ‖x‖) ≤ Q * dt * W := mul_le_mul_of_nonneg_left hWx (by positivity)
        rw [hD]
        nlinarith
      refine lt_of_le_of_lt (errorNorm_le sel atol rtol ha hr x x' _ (D * dt) (by positivity) hb') ?_
      rw [div_lt_one ha]
      have : D * dt ≤ D * (atol / (2 * D)) := mul_le_mul_of_nonneg_left (hle.trans (min_le_right _ _)) hDpos.le
      have e2 : D * (atol / (2 * D)) = atol / 2 := by field_simp
      rw [e2] at this
      linarith)
    (f t0 x) x ⟨hf _ _, by rw [sub_self, mul_zero, Real.exp_zero, mul_one]⟩ hdt
  obtain ⟨dt', _, hinit', e⟩ := odeint_forward fuel f x rest solver hs.adaptive atol rtol ui rae saveAt
    args sel (List.pairwise_cons.1 hinc |>.1 t1 (by simp)).le
  rw [hinit] at hinit'
  cases hinit'
  exact ⟨fuel, ts, xs, by rw [e]; exact h⟩

/-- **C27** for `dopri5` and every field of linear growth. -/
theorem C27_terminates_dopri5_linear (args : A) (f : ℝ → (ι → ℝ) → ι → ℝ) (a L : ℝ) (ha0 : 0 ≤ a) (hL : 0 ≤ L)
    (hf : ∀ t x, ‖f t x‖ ≤ a + L * ‖x‖) (x : ι → ℝ)
    (t0 t1 : ℝ) (rest : List ℝ) (hinc : Increasing (t0 :: t1 :: rest)) (atol rtol : ℝ)
    (ha : 0 < atol) (hr : 0 ≤ rtol) (ui rae : Bool) (saveAt : List ℝ) (sel : Finset ι) :
    ∃ fuel ts xs, odeint fuel (pureField f) x (t0 :: t1 :: rest)
      (dopri5Solver (Except PyErr) ℝ (ι → ℝ) A) atol rtol ui rae saveAt args sel
      = .ok (some (ts, xs)) :=
  C27_terminates_linear_growth (dopri5_fsalSolver args)
    (rk7_growthBounded (constructDopri5 ℝ) args _ fun _ _ _ _ _ => rfl)
    (by norm_num [dopri5Solver]) rfl rfl rfl f a L ha0 hL hf x t0 t1 rest hinc atol rtol ha hr ui rae saveAt sel

/-- **C27** for `tsit5` and every field of linear growth. -/
theorem C27_terminates_tsit5_linear (args : A) (f : ℝ → (ι → ℝ) → ι → ℝ) (a L : ℝ) (ha0 : 0 ≤ a) (hL : 0 ≤ L)
    (hf : ∀ t x, ‖f t x‖ ≤ a + L * ‖x‖) (x : ι → ℝ)
    (t0 t1 : ℝ) (rest : List ℝ) (hinc : Increasing (t0 :: t1 :: rest)) (atol rtol : ℝ)
    (ha : 0 < atol) (hr : 0 ≤ rtol) (ui rae : Bool) (saveAt : List ℝ) (sel : Finset ι) :
    ∃ fuel ts xs, odeint fuel (pureField f) x (t0 :: t1 :: rest)
      (tsit5Solver (Except PyErr) ℝ (ι → ℝ) A) atol rtol ui rae saveAt args sel
      = .ok (some (ts, xs)) :=
  C27_terminates_linear_growth (tsit5_fsalSolver args)
    (rk7_growthBounded (constructTsit5 ℝ) args _ fun _ _ _ _ _ => rfl)
    (by norm_num [tsit5Solver]) rfl rfl rfl f a L ha0 hL hf x t0 t1 rest hinc atol rtol ha hr ui rae saveAt sel

/-- Non-vacuity: the growing linear field `x' = 3 x`, whose solutions are unbounded. -/
example (x : Fin 2 → ℝ) : ∃ fuel ts xs, odeint fuel (pureField (fun _ x => (3 : ℝ) • x)) x [0, 1, 5]
    (dopri5Solver (Except PyErr) ℝ (Fin 2 → ℝ) Unit) (1 / 1000) (1 / 1000) true false [] () Finset.univ =
      .ok (some (ts, xs)) :=
  C27_terminates_dopri5_linear () _ 0 3 le_rfl (by norm_num) (fun _ x => by rw [norm_smul]; norm_num) x 0 1 [5]
    (by simp [Increasing]) _ _ (by norm_num) (by norm_num) _ _ _ _

end Torchdyn
