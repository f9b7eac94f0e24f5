import Verif.Model.Symplectic
import Verif.Props.FixedStep

/-!
C68: solver names. C69: `odeint_symplectic`.
-/

namespace Torchdyn

open Spec

/-! ### C68 -/

/-- The documented names of each solver. -/
def documentedNames : SolverClass → List String
  | .euler => ["euler"]
  | .midpoint => ["midpoint"]
  | .rungeKutta4 => ["rk4", "rk-4", "RungeKutta4"]
  | .dormandPrince45 => ["dopri5", "DormandPrince45", "DormandPrince5"]
  | .tsitouras45 => ["tsit5", "Tsitouras45", "Tsitouras5"]
  | .implicitEuler => ["ieuler", "implicit_euler"]
  | .asynchronousLeapfrog => ["alf", "AsynchronousLeapfrog"]

/-- The documented names of each multiple shooting solver. -/
def documentedMsNames : MSSolverClass → List String
  | .msZero => ["mszero", "zero", "parareal"]
  | .msBackward => ["msbackward", "backward", "discrete-adjoint"]
  | .parallelImplicitEuler => ["ieuler", "parallel-implicit-euler"]

private theorem dictGet_error_iff {α : Type} (d : List (String × α)) (k : String) (e : PyErr) :
    dictGet d k = .error e ↔ e = .keyError ∧ k ∉ d.map Prod.fst := by
  unfold dictGet
  cases h : d.find? (fun p => p.1 == k) with
  | some p =>
    have hp := List.find?_some h
    have hm := List.mem_of_find?_eq_some h
    simp only [reduceCtorEq, false_iff, not_and, not_not]
    intro _
    exact List.mem_map.mpr ⟨p, hm, by simpa using hp⟩
  | none =>
    rw [List.find?_eq_none] at h
    simp only [Except.error.injEq, List.mem_map, not_exists, not_and]
    constructor
    · rintro rfl
      exact ⟨rfl, fun p hp he => h p hp (by simpa using he)⟩
    · rintro ⟨rfl, _⟩; rfl

private theorem dictGet_ok_mem {α : Type} {d : List (String × α)} {k : String} {v : α} (h : dictGet d k = .ok v) :
    (k, v) ∈ d := by
  unfold dictGet at h
  cases hf : d.find? (fun p => p.1 == k) with
  | none => rw [hf] at h; cases h
  | some p =>
    rw [hf] at h
    have hp : p.1 = k := by simpa using List.find?_some hf
    have hv : p.2 = v := by simpa using h
    rw [← hp, ← hv]
    exact List.mem_of_find?_eq_some hf

/-- **C68.** For every string: it resolves to a solver exactly when it is one of the documented names of that solver, and it
raises `KeyError`, and nothing else, exactly when it is none. -/
theorem C68_names (name : String) :
    (∀ c, strToSolver name = .ok c ↔ name ∈ documentedNames c) ∧
      (∀ e, strToSolver name = .error e ↔ e = .keyError ∧ ∀ c, name ∉ documentedNames c) := by
  have key : ∀ c, strToSolver name = .ok c ↔ name ∈ documentedNames c := by
    intro c
    constructor
    · intro h
      have := dictGet_ok_mem h
      simp only [solverDict, List.mem_cons, Prod.mk.injEq, List.not_mem_nil, or_false] at this
      rcases this with h | h | h | h | h | h | h | h | h | h | h | h | h | h | h <;> obtain ⟨rfl, rfl⟩ := h <;> decide
    · intro h
      cases c <;> simp only [documentedNames, List.mem_cons, List.not_mem_nil, or_false] at h <;>
        rcases h with rfl | rfl | rfl <;> rfl
  refine ⟨key, fun e => ⟨fun h => ?_, fun ⟨he, h⟩ => ?_⟩⟩
  · obtain ⟨he, _⟩ := (dictGet_error_iff _ _ _).mp h
    exact ⟨he, fun c hc => by rw [(key c).mpr hc] at h; cases h⟩
  · cases hr : strToSolver name with
    | ok c => exact absurd ((key c).mp hr) (h c)
    | error e' => rw [((dictGet_error_iff _ _ _).mp hr).1, he]

/-- **C68** for multiple shooting solvers. -/
theorem C68_ms_names (name : String) :
    (∀ c, strToMsSolver name = .ok c ↔ name ∈ documentedMsNames c) ∧
      (∀ e, strToMsSolver name = .error e ↔ e = .keyError ∧ ∀ c, name ∉ documentedMsNames c) := by
  have key : ∀ c, strToMsSolver name = .ok c ↔ name ∈ documentedMsNames c := by
    intro c
    constructor
    · intro h
      have := dictGet_ok_mem h
      simp only [msSolverDict, List.mem_cons, Prod.mk.injEq, List.not_mem_nil, or_false] at this
      rcases this with h | h | h | h | h | h | h | h <;> obtain ⟨rfl, rfl⟩ := h <;> decide
    · intro h
      cases c <;> simp only [documentedMsNames, List.mem_cons, List.not_mem_nil, or_false] at h <;>
        rcases h with rfl | rfl | rfl <;> rfl
  refine ⟨key, fun e => ⟨fun h => ?_, fun ⟨he, h⟩ => ?_⟩⟩
  · obtain ⟨he, _⟩ := (dictGet_error_iff _ _ _).mp h
    exact ⟨he, fun c hc => by rw [(key c).mpr hc] at h; cases h⟩
  · cases hr : strToMsSolver name with
    | ok c => exact absurd ((key c).mp hr) (h c)
    | error e' => rw [((dictGet_error_iff _ _ _).mp hr).1, he]

/-- Non-vacuity: a name that resolves, one that does not (names are case sensitive), and one with different meanings. -/
example : strToSolver "rk-4" = .ok .rungeKutta4 ∧ strToSolver "Euler" = .error .keyError ∧
    strToSolver "ieuler" = .ok .implicitEuler ∧ strToMsSolver "ieuler" = .ok .parallelImplicitEuler := by decide

/-! ### C69 -/

section

variable {ι : Type} [Fintype ι]

/-- C69 is false of the code: with an adaptive leapfrog solver and a field of order 1, `odeint_symplectic` raises
`ValueError` for every field, state and tolerances, on every grid that is not already finished: the step returns three values
where the adaptive loop unpacks four. -/
theorem C69_adaptive_refuted (fuel : Nat) (f : ℝ → (ι → ℝ) → ι → ℝ) (x : (ι → ℝ) × (ι → ℝ)) (t0 t1 T : ℝ) (rest : List ℝ)
    (hT : (t0 :: t1 :: rest).getLast? = some T) (hdir : (t0 ≤ t1 ∧ t0 < T) ∨ (t1 < t0 ∧ T < t0))
    (atol rtol : ℝ) (all : Bool) (saveAt : List ℝ) :
    odeintSymplecticAlf (m := Except PyErr) (fuel + 1) (pureField f) (some 1) x (t0 :: t1 :: rest) true atol rtol all saveAt =
      .error .valueError := by
  have hl : (t1 :: rest)[rest.length]? = some T := by
    rw [List.getLast?_eq_getElem?] at hT
    simpa using hT
  rcases hdir with ⟨hd, h⟩ | ⟨hd, h⟩
  · have hg : (t1 :: rest)[rest.length]'(by simp) = T := by
      have := hl; rw [List.getElem?_eq_getElem (by simp)] at this; exact Option.some.inj this
    simp [odeintSymplecticAlf, odeintDirection, getItem, bind, Except.bind, pure, Except.pure, not_lt.mpr hd,
      symplecticOrder, adaptiveOdeint, hg, adaptiveLoop, adaptiveInit, h, adaptiveIter, alfStep, firstStage, pureField,
      StepOut.unpack4, throw, throwThe, MonadExceptOf.throw, initStep]
  · have hl' : (-t1 :: rest.map (fun t => -t))[rest.length]? = some (-T) := by
      have := congrArg (Option.map (fun t => -t)) hl
      rw [← List.getElem?_map] at this
      simpa using this
    have hg : (-t1 :: rest.map (fun t => -t))[rest.length]'(by simp) = -T := by
      have := hl'; rw [List.getElem?_eq_getElem (by simp)] at this; exact Option.some.inj this
    simp [odeintSymplecticAlf, odeintDirection, getItem, bind, Except.bind, pure, Except.pure, hd, reverseField,
      symplecticOrder, adaptiveOdeint, hg, adaptiveLoop, adaptiveInit, h, adaptiveIter, alfStep, firstStage, pureField,
      StepOut.unpack4, throw, throwThe, MonadExceptOf.throw, initStep]

/-- Non-vacuity: the constant field on `[0, 1]`. -/
example : odeintSymplecticAlf (m := Except PyErr) 1 (pureField (fun _ _ => fun _ : Fin 1 => (1 : ℝ))) (some 1) (0, 1) [0, 1]
    true 0.001 0.001 false [] = .error .valueError :=
  C69_adaptive_refuted 0 _ _ 0 1 1 [] rfl (Or.inl ⟨by norm_num, by norm_num⟩) _ _ _ _

/-- C69, the part that holds: with a fixed-step leapfrog solver on an increasing separated grid, one state per time point, the
first one `x` and each next one a leapfrog step over the gap: half a drift, reflection of the velocity about the field at the
midpoint, half a drift. Missing: adaptive solvers, which raise. -/
theorem C69_fixed_partial (fuel : Nat) (f : ℝ → (ι → ℝ) → ι → ℝ) (x : (ι → ℝ) × (ι → ℝ)) (t0 t1 : ℝ) (rest : List ℝ)
    (hd : t0 ≤ t1) (hsep : Separated (t0 :: t1 :: rest)) (atol rtol : ℝ) (all : Bool) :
    ∃ sol, odeintSymplecticAlf (m := Except PyErr) fuel (pureField f) (some 1) x (t0 :: t1 :: rest) false atol rtol all [] =
        .ok (some (t0 :: t1 :: rest, sol)) ∧
      IsTrajectory (fun xv t dt =>
        let mid := xv.1 + (dt / 2) • xv.2
        let v' := (2 : ℝ) • f (t + dt / 2) mid - xv.2
        (mid + (dt / 2) • v', v')) x (t0 :: t1 :: rest) sol := by
  have hs : ∀ (xv : (ι → ℝ) × (ι → ℝ)) (t dt : ℝ), ∃ k e, alfStep (m := Except PyErr) false (pureField f) xv t dt none () =
      ((pure (.three k ((fun xv t dt =>
        let mid := xv.1 + (dt / 2) • xv.2
        let v' := (2 : ℝ) • f (t + dt / 2) mid - xv.2
        (mid + (dt / 2) • v', v')) xv t dt) e) : Except PyErr _)) := by
    intro xv t dt
    refine ⟨none, none, ?_⟩
    have e1 : (1 / 2 : ℝ) * dt = dt / 2 := by ring
    have e2 : ∀ a b : ι → ℝ, ((2 : ℝ) * 1) • (a - b) + b = (2 : ℝ) • a - b := by intro a b; module
    simp only [alfStep, firstStage, pureField, bind, Except.bind, pure, Except.pure, e1, e2, Bool.false_eq_true, if_false]
  have h := fixedOdeint_default (m := Except PyErr) (fun xv t dt => alfStep false (pureField f) xv t dt none ()) (pure ()) _
    (fun xv t dt => let ⟨k, e, h⟩ := hs xv t dt; ⟨k, e, h⟩) x (t0 :: t1 :: rest) (by simp) hsep
  rw [tickN_pure] at h
  refine ⟨_, ?_, gridStates_isTrajectory _ x (t0 :: t1 :: rest) (by simp)⟩
  simp only [odeintSymplecticAlf, odeintDirection, getItem, List.getElem?_cons_succ, List.getElem?_cons_zero, pure_bind,
    if_neg (not_lt.2 hd), symplecticOrder, Bool.false_eq_true, if_false, h]
  simp [bind, Except.bind, pure, Except.pure]

/-- C69, error branches: a field without the attribute `order`, and the leapfrog solver with a field of order 2, raise
`RuntimeError`. -/
theorem C69_order (fuel : Nat) (f : ℝ → (ι → ℝ) → ι → ℝ) (x : (ι → ℝ) × (ι → ℝ)) (t0 t1 : ℝ) (rest : List ℝ)
    (adaptive : Bool) (atol rtol : ℝ) (all : Bool) (saveAt : List ℝ) (order : Option Nat) (h : order = none ∨ order = some 2) :
    odeintSymplecticAlf (m := Except PyErr) fuel (pureField f) order x (t0 :: t1 :: rest) adaptive atol rtol all saveAt =
      .error .runtimeError := by
  by_cases hd : t1 < t0 <;> rcases h with rfl | rfl <;>
    simp [odeintSymplecticAlf, odeintDirection, getItem, bind, Except.bind, pure, Except.pure, hd, symplecticOrder, throw,
      throwThe, MonadExceptOf.throw]

/-- C69: with any other solver object and a field of order 2, on a grid that starts forwards, `odeint_symplectic` is `odeint`
without interpolation; `return_all_eval` has no effect (it lands in `args`, which the solver is assumed to ignore). -/
theorem C69_other_solvers (fuel : Nat) (f : ℝ → (ι → ℝ) → ι → ℝ) (x : ι → ℝ) (t0 t1 : ℝ) (rest : List ℝ) (hd : t0 ≤ t1)
    (solver : Solver (Except PyErr) ℝ (ι → ℝ) Bool) (hargs : ∀ g x t dt k a b, solver.step g x t dt k a = solver.step g x t dt k b)
    (atol rtol : ℝ) (all args : Bool) (saveAt : List ℝ) :
    odeintSymplectic fuel (pureField f) (some 2) x (t0 :: t1 :: rest) solver atol rtol all saveAt =
      odeint fuel (pureField f) x (t0 :: t1 :: rest) solver atol rtol false false saveAt args Finset.univ := by
  have ha : ∀ g x t dt k a, solver.step g x t dt k a = solver.step g x t dt k args := fun g x t dt k a => hargs _ _ _ _ _ _ _
  simp only [odeintSymplectic, odeint, odeintDirection, getItem, List.getElem?_cons_succ, List.getElem?_cons_zero, pure_bind,
    if_neg (not_lt.2 hd), symplecticOrder, odeintCfg, ha _ _ _ _ _ all, ha _ _ _ _ _ false]
  simp

/-- The built-in solver satisfies the hypothesis. -/
example : ∀ g x t dt k a b, (dopri5Solver (Except PyErr) ℝ (ι → ℝ) Bool).step g x t dt k a =
    (dopri5Solver (Except PyErr) ℝ (ι → ℝ) Bool).step g x t dt k b := fun _ _ _ _ _ _ _ => rfl

end

end Torchdyn
