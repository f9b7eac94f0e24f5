import Verif.Props.FixedStep
import Verif.Proofs.Convergence
import Mathlib.Tactic.Module
import Mathlib.Analysis.SpecialFunctions.ExpDeriv

/-!
Properties C15 (rounding of the loop clock) and C20 (convergence of Euler's method).
-/

set_option linter.unusedSectionVars false
set_option linter.unusedSimpArgs false

namespace Torchdyn

open Spec Set

/-- The standard model of floating-point addition and subtraction with rounding unit `u` (no
overflow): `val` reads a machine number as a real number. -/
structure Rounded (K : Type) [Add K] [Sub K] (val : K → ℝ) (u : ℝ) : Prop where
  add : ∀ a b : K, |val (a + b) - (val a + val b)| ≤ u * |val a + val b|
  sub : ∀ a b : K, |val (a - b) - (val a - val b)| ≤ u * |val a - val b|

section rounding

variable {K V : Type} [Add K] [Sub K]

/-- One update of the clock: `t ⊕ (s ⊖ t)` misses `s` by at most `u|s| + u(1+u)|s - t|`. -/
theorem clock_step_error {val : K → ℝ} {u : ℝ} (hu : 0 ≤ u) (h : Rounded K val u) (τ s : K) :
    |val (τ + (s - τ)) - val s| ≤ u * |val s| + u * (1 + u) * |val s - val τ| := by
  have h1 := h.sub s τ
  have h2 := h.add τ (s - τ)
  set d := val (s - τ)
  have e1 : |val τ + d| ≤ |val s| + |d - (val s - val τ)| := by
    have : val τ + d = val s + (d - (val s - val τ)) := by ring
    rw [this]; exact abs_add_le _ _
  have e2 : |val (τ + (s - τ)) - val s| ≤
      |val (τ + (s - τ)) - (val τ + d)| + |d - (val s - val τ)| := by
    have : val (τ + (s - τ)) - val s =
      (val (τ + (s - τ)) - (val τ + d)) + (d - (val s - val τ)) := by ring
    rw [this]; exact abs_add_le _ _
  have e3 : u * |val τ + d| ≤ u * (|val s| + u * |val s - val τ|) :=
    mul_le_mul_of_nonneg_left (e1.trans (by linarith)) hu
  nlinarith [abs_nonneg (val s - val τ)]

/-- Errors of the clock on a grid of magnitude `M`: at most `4 u M`, independently of the number of
steps. -/
theorem clockTimes_bound {val : K → ℝ} {u M : ℝ} (hu : 0 ≤ u) (hu1 : u ≤ 1 / 16)
    (h : Rounded K val u) (rest : List K) (t τ : K) (hτ : |val τ - val t| ≤ 4 * u * M)
    (hM : ∀ s ∈ t :: rest, |val s| ≤ M) :
    List.Forall₂ (fun τ t => |val τ - val t| ≤ 4 * u * M) (clockTimes τ rest) (t :: rest) := by
  induction rest generalizing t τ with
  | nil => exact List.Forall₂.cons hτ List.Forall₂.nil
  | cons s rest ih =>
    refine List.Forall₂.cons hτ (ih s _ ?_ (fun r hr => hM r (List.mem_cons_of_mem _ hr)))
    have hs := clock_step_error hu h τ s
    have hMs := hM s (by simp)
    have hMt := hM t (by simp)
    have hM0 : 0 ≤ M := (abs_nonneg _).trans hMt
    have hd : |val s - val τ| ≤ 2 * M + 4 * u * M := by
      have : val s - val τ = val s - val t - (val τ - val t) := by ring
      rw [this]
      have h1 := abs_sub (val s - val t) (val τ - val t)
      have h2 := abs_sub (val s) (val t)
      linarith
    have hp : u * (1 + u) * |val s - val τ| ≤ u * (1 + u) * (2 * M + 4 * u * M) :=
      mul_le_mul_of_nonneg_left hd (by positivity)
    have hq : u * |val s| ≤ u * M := mul_le_mul_of_nonneg_left hMs hu
    have huM : 0 ≤ u * M := by positivity
    have : u * (1 + u) * (2 * M + 4 * u * M) ≤ 3 * (u * M) := by
      have : u * (1 + u) * (2 * M + 4 * u * M) = (u * M) * ((1 + u) * (2 + 4 * u)) := by ring
      rw [this]
      have : (1 + u) * (2 + 4 * u) ≤ 3 := by nlinarith
      nlinarith
    linarith

/-- Errors of the clock on a nonnegative increasing grid: relative error at most `4 u`. -/
theorem clockTimes_bound_rel {val : K → ℝ} {u : ℝ} (hu : 0 ≤ u) (hu1 : u ≤ 1 / 16)
    (h : Rounded K val u) (rest : List K) (t τ : K) (hτ : |val τ - val t| ≤ 4 * u * val t)
    (h0 : 0 ≤ val t) (hmono : (t :: rest).Pairwise (fun a b => val a ≤ val b)) :
    List.Forall₂ (fun τ t => |val τ - val t| ≤ 4 * u * |val t|) (clockTimes τ rest) (t :: rest) := by
  induction rest generalizing t τ with
  | nil => exact List.Forall₂.cons (by rwa [abs_of_nonneg h0]) List.Forall₂.nil
  | cons s rest ih =>
    have hts : val t ≤ val s := (List.pairwise_cons.1 hmono).1 s (by simp)
    have h0s : 0 ≤ val s := h0.trans hts
    refine List.Forall₂.cons (by rwa [abs_of_nonneg h0]) (ih s _ ?_ h0s (List.pairwise_cons.1 hmono).2)
    have hs := clock_step_error hu h τ s
    rw [abs_of_nonneg h0s] at hs
    have hd : |val s - val τ| ≤ 2 * val s := by
      have : val s - val τ = (val s - val t) - (val τ - val t) := by ring
      rw [this]
      have h1 := abs_sub (val s - val t) (val τ - val t)
      rw [abs_of_nonneg (sub_nonneg.2 hts)] at h1
      nlinarith
    have hp : u * (1 + u) * |val s - val τ| ≤ u * (1 + u) * (2 * val s) :=
      mul_le_mul_of_nonneg_left hd (by positivity)
    have hus : 0 ≤ u * val s := by positivity
    nlinarith

/-- **C15**, the loop in rounded arithmetic. On every grid accepted by the assertion whose times have
magnitude at most `M`, if the save-point test recognises times that are off by at most `4uM`, then
`_fixed_odeint` returns the whole grid, one state per grid point; the times `τ_k` at which the stepper
is called differ from `t_span[k]` by at most `4uM`, whatever the number of steps, and the step sizes
are re-anchored at the grid (`t_span[k+1] ⊖ τ_k`). -/
theorem C15_clock {val : K → ℝ} {u M : ℝ} (hu : 0 ≤ u) (hu1 : u ≤ 1 / 16) (h : Rounded K val u)
    (isclose : K → K → Bool) (hclose : ∀ a b, |val a - val b| ≤ 4 * u * M → isclose a b = true)
    (step : V → K → K → Except PyErr (StepOut V)) (φ : V → K → K → V)
    (hstep : ∀ x t dt, ∃ k e, step x t dt = .ok (.three k (φ x t dt) e))
    (x : V) (tSpan : List K) (h2 : 2 ≤ tSpan.length) (hM : ∀ s ∈ tSpan, |val s| ≤ M)
    (hassert : ∀ t ∈ tSpan, (tSpan.filter (fun s => isclose t s)).length = 1) :
    ∃ (sol : List V) (τ : List K),
      fixedOdeint isclose step x tSpan [] = .ok (tSpan, sol) ∧
      sol.length = tSpan.length ∧ τ.length = tSpan.length ∧ sol[0]? = some x ∧
      (∀ (k : ℕ) (a t : K), τ[k]? = some a → tSpan[k]? = some t → |val a - val t| ≤ 4 * u * M) ∧
      (∀ (k : ℕ) (a t' : K) (y : V), τ[k]? = some a → tSpan[k + 1]? = some t' → sol[k]? = some y →
        sol[k + 1]? = some (φ y a (t' - a))) := by
  match tSpan, h2 with
  | t0 :: t1 :: rest, _ =>
    have hM0 : 0 ≤ M := (abs_nonneg _).trans (hM t0 (by simp))
    have hb := clockTimes_bound hu hu1 h (t1 :: rest) t0 t0
      (by rw [sub_self, abs_zero]; positivity) hM
    refine ⟨clockStates φ t0 x (t1 :: rest), clockTimes t0 (t1 :: rest), ?_, ?_, ?_, ?_, ?_, ?_⟩
    · rw [fixedOdeint_clock isclose step (pure ()) φ
        (fun x t dt => by obtain ⟨k, e, h⟩ := hstep x t dt; exact ⟨k, e, by rw [h]; rfl⟩), tickN_pure]
      have e : effSaveAt (t0 :: t1 :: rest) [] = t0 :: t1 :: rest := rfl
      rw [e, if_pos]
      · rw [collect_all]
        · rfl
        · intro a ha
          simp only [decide_eq_true_eq]
          obtain ⟨i, hi⟩ := List.mem_iff_getElem?.1 ha
          have hlen := hb.length_eq
          obtain ⟨hi', rfl⟩ := List.getElem?_eq_some_iff.1 hi
          have := hb.get hi' (by rw [← hlen]; exact hi')
          have hc := hclose _ _ this
          intro h0
          simp only [closeCount, List.length_eq_zero_iff, List.filter_eq_nil_iff] at h0
          exact h0 _ (List.get_mem _ _) hc
        · rw [clockStates_length, clockTimes_length]
      · rw [List.all_eq_true]
        intro t ht
        rw [beq_iff_eq]
        exact hassert t ht
    · rw [clockStates_length]; rfl
    · rw [clockTimes_length]; rfl
    · rfl
    · intro k a t ha ht
      obtain ⟨ha', rfl⟩ := List.getElem?_eq_some_iff.1 ha
      obtain ⟨ht', rfl⟩ := List.getElem?_eq_some_iff.1 ht
      exact hb.get ha' ht'
    · intro k
      generalize t1 :: rest = l
      generalize t0 = b
      generalize hb0 : b = b'
      rw [← hb0]
      induction k generalizing b b' x l with
      | zero =>
        intro a t' y h1 h2 h3
        cases l with
        | nil => simp at h2
        | cons s l =>
          simp only [clockTimes, clockStates, List.getElem?_cons_zero, Option.some.injEq,
            List.getElem?_cons_succ, zero_add] at h1 h2 h3 ⊢
          subst h1 h2 h3
          rw [clockStates_cons]; rfl
      | succ k ih =>
        intro a t' y h1 h2 h3
        cases l with
        | nil => simp at h2
        | cons s l =>
          simp only [clockTimes, clockStates, List.getElem?_cons_succ] at h1 h2 h3 ⊢
          exact ih _ _ _ _ rfl a t' y h1 h2 h3

/-- **C15** for the save-point test of the code (relative tolerance `1e-5`): on every nonnegative
increasing grid accepted by the assertion, in any arithmetic with rounding unit at most `2.5e-6`
(`float32`, `float64`), every grid point is recognised and one state per point is returned. -/
theorem C15_recognised_partial {val : K → ℝ} {u : ℝ} (hu : 0 ≤ u) (hu1 : 4 * u ≤ 1 / 10 ^ 5)
    (h : Rounded K val u)
    (isclose : K → K → Bool) (hclose : ∀ a b, Close (val a) (val b) → isclose a b = true)
    (step : V → K → K → Except PyErr (StepOut V)) (φ : V → K → K → V)
    (hstep : ∀ x t dt, ∃ k e, step x t dt = .ok (.three k (φ x t dt) e))
    (x : V) (tSpan : List K) (h2 : 2 ≤ tSpan.length) (h0 : ∀ s ∈ tSpan, 0 ≤ val s)
    (hmono : tSpan.Pairwise (fun a b => val a ≤ val b))
    (hassert : ∀ t ∈ tSpan, (tSpan.filter (fun s => isclose t s)).length = 1) :
    ∃ (sol : List V), fixedOdeint isclose step x tSpan [] = .ok (tSpan, sol) ∧
      sol.length = tSpan.length := by
  match tSpan, h2 with
  | t0 :: t1 :: rest, _ =>
    have hb := clockTimes_bound_rel hu (by norm_num at hu1; linarith) h (t1 :: rest) t0 t0
      (by rw [sub_self, abs_zero]; have := h0 t0 (by simp); positivity) (h0 t0 (by simp)) hmono
    refine ⟨clockStates φ t0 x (t1 :: rest), ?_, ?_⟩
    · rw [fixedOdeint_clock isclose step (pure ()) φ
        (fun x t dt => by obtain ⟨k, e, h⟩ := hstep x t dt; exact ⟨k, e, by rw [h]; rfl⟩), tickN_pure]
      have e : effSaveAt (t0 :: t1 :: rest) [] = t0 :: t1 :: rest := rfl
      rw [e, if_pos]
      · rw [collect_all]
        · rfl
        · intro a ha
          simp only [decide_eq_true_eq]
          obtain ⟨i, hi⟩ := List.mem_iff_getElem?.1 ha
          have hlen := hb.length_eq
          obtain ⟨hi', rfl⟩ := List.getElem?_eq_some_iff.1 hi
          have hbd := hb.get hi' (by rw [← hlen]; exact hi')
          have hc := hclose _ _ (show Close _ _ from by
            rw [Close]
            refine hbd.trans ?_
            have := mul_le_mul_of_nonneg_right hu1 (abs_nonneg (val ((t0 :: t1 :: rest).get ⟨i, by rw [← hlen]; exact hi'⟩)))
            have h8 : (0 : ℝ) ≤ 1 / 10 ^ 8 := by positivity
            linarith)
          intro h0
          simp only [closeCount, List.length_eq_zero_iff, List.filter_eq_nil_iff] at h0
          exact h0 _ (List.get_mem _ _) hc
        · rw [clockStates_length, clockTimes_length]
      · rw [List.all_eq_true]
        intro t ht
        rw [beq_iff_eq]
        exact hassert t ht
    · rw [clockStates_length]; rfl

end rounding

/-- Numbers whose sums and differences are rounded by `fl`: a concrete instance of `Rounded`. -/
structure Fl (fl : ℝ → ℝ) where
  v : ℝ

instance (fl : ℝ → ℝ) : Add (Fl fl) := ⟨fun a b => ⟨fl (a.v + b.v)⟩⟩
instance (fl : ℝ → ℝ) : Sub (Fl fl) := ⟨fun a b => ⟨fl (a.v - b.v)⟩⟩

/-- The hypothesis `Rounded` holds for every rounding function with relative error `u`, for instance
one that always errs by the full unit. -/
example (u : ℝ) (hu : 0 ≤ u) : Rounded (Fl (fun r => r * (1 + u))) Fl.v u := by
  constructor <;> intro a b
  · show |(a.v + b.v) * (1 + u) - (a.v + b.v)| ≤ _
    rw [show (a.v + b.v) * (1 + u) - (a.v + b.v) = u * (a.v + b.v) by ring, abs_mul, abs_of_nonneg hu]
  · show |(a.v - b.v) * (1 + u) - (a.v - b.v)| ≤ _
    rw [show (a.v - b.v) * (1 + u) - (a.v - b.v) = u * (a.v - b.v) by ring, abs_mul, abs_of_nonneg hu]

section convergence

variable {V : Type} [NormedAddCommGroup V] [NormedSpace ℝ V] {A : Type}

/-- **C20.** For `f` Lipschitz in the state with constant `L` and a solution `y` of `y' = f(t, y)` on
`[t0, T]` with `‖y''‖ ≤ M`, the states returned by `euler` on any increasing grid in `[t0, T]` with
gaps at most `h` differ from `y` by at most `h M/2 (t - t0) exp(L (t - t0))`. -/
theorem C20_euler_converges (f : ℝ → V → V) (y y'' : ℝ → V) (L M h t0 t1 T : ℝ) (rest : List ℝ)
    (args : A) (hL : 0 ≤ L) (hM : 0 ≤ M)
    (hLip : ∀ t x x', ‖f t x - f t x'‖ ≤ L * ‖x - x'‖)
    (hy : ∀ t ∈ Icc t0 T, HasDerivWithinAt y (f t (y t)) (Icc t0 T) t)
    (hy2 : ∀ t ∈ Icc t0 T, HasDerivWithinAt (fun s => f s (y s)) (y'' t) (Icc t0 T) t)
    (hy2M : ∀ t ∈ Icc t0 T, ‖y'' t‖ ≤ M)
    (hmono : (t0 :: t1 :: rest).Pairwise (· < ·)) (hsep : Separated (t0 :: t1 :: rest))
    (hT : ∀ t ∈ t0 :: t1 :: rest, t ≤ T)
    (hgap : ∀ (k : ℕ) (t t' : ℝ), (t0 :: t1 :: rest)[k]? = some t →
      (t0 :: t1 :: rest)[k + 1]? = some t' → t' - t ≤ h) :
    ∃ sol, odeintFixed (pureField f) (y t0) (t0 :: t1 :: rest) (eulerSolver (Except PyErr) ℝ V A) []
        args = .ok (t0 :: t1 :: rest, sol) ∧ sol.length = (t0 :: t1 :: rest).length ∧
      ∀ (k : ℕ) (t : ℝ) (x : V), (t0 :: t1 :: rest)[k]? = some t → sol[k]? = some x →
        ‖x - y t‖ ≤ h * M / 2 * (t - t0) * Real.exp (L * (t - t0)) := by
  have h01 : t0 < t1 := (List.pairwise_cons.1 hmono).1 t1 (by simp)
  obtain ⟨sol, hrun, htraj⟩ := C12_trajectory (euler_steppedBy f args) (y t0) t0 t1 rest h01.le hsep
  refine ⟨sol, hrun, htraj.length_eq, ?_⟩
  have hh : 0 ≤ h := (sub_nonneg.2 h01.le).trans (hgap 0 t0 t1 rfl rfl)
  refine global_error_bound (T := T) hL (by positivity) (hmono.imp le_of_lt) hT ?_ ?_ htraj
  · intro t t' _ htt' _ _ x x'
    have e : x + (t' - t) • f t x - (x' + (t' - t) • f t x') =
        (x - x') + (t' - t) • (f t x - f t x') := by module
    rw [e]
    have h0 : 0 ≤ t' - t := sub_nonneg.2 htt'
    calc ‖(x - x') + (t' - t) • (f t x - f t x')‖ ≤ ‖x - x'‖ + ‖(t' - t) • (f t x - f t x')‖ :=
          norm_add_le _ _
      _ ≤ ‖x - x'‖ + (t' - t) * (L * ‖x - x'‖) := by
          rw [norm_smul, Real.norm_of_nonneg h0]
          have := mul_le_mul_of_nonneg_left (hLip t x x') h0
          linarith
      _ = _ := by ring
  · intro a b h0a hab hbT ⟨k, hka, hkb⟩
    have hsub : Icc a b ⊆ Icc t0 T := Icc_subset_Icc h0a hbT
    have hin : ∀ t ∈ Ico a b, Icc t0 T ∈ nhdsWithin t (Ici t) := fun t ht =>
      Filter.mem_of_superset (Icc_mem_nhdsGE ht.2) (Icc_subset_Icc (h0a.trans ht.1) hbT)
    have hloc := euler_local_error (y := y) (y' := fun t => f t (y t)) (M := M) hab
      (fun t ht => ((hy t (hsub ht)).continuousWithinAt).mono hsub)
      (fun t ht => (hy t (hsub (Ico_subset_Icc_self ht))).mono_of_mem_nhdsWithin (hin t ht))
      (fun t ht => by
        have := norm_image_sub_le_of_norm_deriv_right_le_segment (a := a) (b := b) (C := M)
          (f := fun s => f s (y s)) (f' := y'')
          (fun t ht => ((hy2 t (hsub ht)).continuousWithinAt).mono hsub)
          (fun t ht => (hy2 t (hsub (Ico_subset_Icc_self ht))).mono_of_mem_nhdsWithin (hin t ht))
          (fun t ht => hy2M t (hsub (Ico_subset_Icc_self ht))) t (Ico_subset_Icc_self ht)
        simpa using this)
    refine hloc.trans ?_
    have hg := hgap k a b hka hkb
    have h0 : 0 ≤ b - a := sub_nonneg.2 hab
    have : (b - a) ^ 2 ≤ h * (b - a) := by nlinarith
    have := mul_le_mul_of_nonneg_left this (by positivity : 0 ≤ M / 2)
    linarith

/-- C20 applied to `y' = y`, `y = exp` on the grid `0, 1/2, 1`: all hypotheses are met. -/
example : ∃ sol, odeintFixed (pureField (fun _ x => x)) (Real.exp 0) [0, 1 / 2, 1]
      (eulerSolver (Except PyErr) ℝ ℝ Unit) [] () = .ok ([0, 1 / 2, 1], sol) ∧ sol.length = 3 ∧
    ∀ (k : ℕ) (t : ℝ) (x : ℝ), ([0, 1 / 2, 1] : List ℝ)[k]? = some t → sol[k]? = some x →
      ‖x - Real.exp t‖ ≤ 1 / 2 * Real.exp 1 / 2 * (t - 0) * Real.exp (1 * (t - 0)) := by
  refine C20_euler_converges (fun _ x => x) Real.exp Real.exp 1 (Real.exp 1) (1 / 2) 0 (1 / 2) 1 [1]
    () (by norm_num) (Real.exp_pos 1).le ?_ ?_ ?_ ?_ ?_ ?_ ?_ ?_
  · intro t x x'; simp
  · intro t _; exact (Real.hasDerivAt_exp t).hasDerivWithinAt
  · intro t _; exact (Real.hasDerivAt_exp t).hasDerivWithinAt
  · intro t ht
    rw [Real.norm_of_nonneg (Real.exp_pos t).le]
    exact Real.exp_le_exp.2 ht.2
  · norm_num
  · simp only [Separated, Close, List.pairwise_cons, List.mem_cons, List.not_mem_nil, or_false,
      forall_eq_or_imp, forall_eq, false_implies, implies_true, List.Pairwise.nil, and_true]
    norm_num [abs_of_pos, abs_of_neg]
  · norm_num
  · intro k t t' h1 h2
    match k with
    | 0 => simp at h1 h2; subst h1 h2; norm_num
    | 1 => simp at h1 h2; subst h1 h2; norm_num
    | 2 => simp at h2
    | n + 3 => simp at h1

end convergence

end Torchdyn
