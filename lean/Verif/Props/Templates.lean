import Verif.Model.Templates
import Verif.Props.FixedStep

/-!
Property C119: solvers derived from the templates of the library.
-/

set_option linter.unusedSectionVars false

namespace Torchdyn

open Spec

variable {A ι : Type} [Fintype ι]

section
variable {m : Type → Type} [Monad m] [MonadExcept PyErr m] {K V : Type} [Field K]

/-- **C119 is false** for the documented templates: no class derived from `BaseExplicit` or `BaseImplicit` can be instantiated
through their constructors, whatever it overrides and whatever the arguments. -/
theorem C119_base_refuted (c : CustomClass m K V A) (hc : c.base = .baseExplicit ∨ c.base = .baseImplicit) (order : Nat)
    (steppingClass : Option String) (minFactor maxFactor safety : K) :
    c.construct order steppingClass minFactor maxFactor safety = .error .typeError := by
  obtain ⟨b, a, s⟩ := c
  rcases hc with h | h <;> simp only at h <;> subst h <;> rfl

/-- **C119.** The classes that can be instantiated: `DiffEqSolver`, fixed unless told otherwise, and `SolverTemplate`, whose
stepping class must be assigned by the derived class and cannot be given as an argument. -/
theorem C119_construct (a : Option String) (step : StepMethod m K V A) (order : Nat) (cls : String) :
    (∃ s, (⟨.diffEqSolver, none, some step⟩ : CustomClass m K V A).construct order = .ok s ∧
      s.order = order ∧ s.steppingClass = some "fixed" ∧ s.step = step) ∧
    (∃ s, (⟨.diffEqSolver, none, some step⟩ : CustomClass m K V A).construct order cls = .ok s ∧
      s.order = order ∧ s.steppingClass = some cls ∧ s.step = step) ∧
    (∃ s, (⟨.solverTemplate, a, some step⟩ : CustomClass m K V A).construct order = .ok s ∧
      s.order = order ∧ s.steppingClass = a ∧ s.step = step) ∧
    (⟨.solverTemplate, a, some step⟩ : CustomClass m K V A).construct order cls = .error .typeError :=
  ⟨⟨_, rfl, rfl, rfl, rfl⟩, ⟨_, rfl, rfl, rfl, rfl⟩, ⟨_, rfl, rfl, rfl, rfl⟩, rfl⟩

/-- **C119.** A stepping class assigned by the derived class wins over the argument and over the default. -/
theorem C119_assigned (cls : String) (step : StepMethod m K V A) (order : Nat) (arg : Option String) (minFactor maxFactor safety : K) :
    ∃ s, (⟨.diffEqSolver, some cls, some step⟩ : CustomClass m K V A).construct order arg minFactor maxFactor safety = .ok s ∧
      s.steppingClass = some cls ∧ s.minFactor = minFactor ∧ s.maxFactor = maxFactor ∧ s.safety = safety :=
  ⟨_, rfl, rfl, rfl, rfl, rfl⟩

end

/-- **C119**, fixed-step solvers: an object whose `step` computes `φ` is driven over the grid like a built-in one: its states are
those of `x_{k+1} = φ(x_k, t_k, t_{k+1} - t_k)`. -/
theorem C119_fixed_partial (fuel : Nat) {f : ℝ → (ι → ℝ) → (ι → ℝ)} {step : StepMethod (Except PyErr) ℝ (ι → ℝ) A} {args : A}
    {φ : (ι → ℝ) → ℝ → ℝ → (ι → ℝ)} (base : SolverBase) (hb : base = .diffEqSolver ∨ base = .solverTemplate)
    (hs : ∀ x t dt, ∃ k e, step (pureField f) x t dt none args = .ok (.three k (φ x t dt) e))
    (order : Nat) (x : ι → ℝ) (t0 t1 : ℝ) (rest : List ℝ) (hdir : t0 ≤ t1) (hsep : Separated (t0 :: t1 :: rest))
    (atol rtol : ℝ) (useInterp returnAllEval : Bool) (sel : Finset ι) :
    ∃ s sol, (⟨base, some "fixed", some step⟩ : CustomClass (Except PyErr) ℝ (ι → ℝ) A).construct order = .ok s ∧
      odeintCustom fuel (pureField f) x (t0 :: t1 :: rest) s atol rtol useInterp returnAllEval [] args sel =
        .ok (.pair (t0 :: t1 :: rest) sol) ∧
      IsTrajectory φ x (t0 :: t1 :: rest) sol := by
  have hs' : SteppedBy (⟨order, false, false, 9 / 10, 1 / 5, 10, step⟩ : Solver (Except PyErr) ℝ (ι → ℝ) A) f args φ := hs
  obtain ⟨sol, h, hsol⟩ := C12_trajectory hs' x t0 t1 rest hdir hsep
  refine ⟨⟨order, some "fixed", 9 / 10, 1 / 5, 10, step⟩, sol, ?_, ?_, hsol⟩
  · rcases hb with rfl | rfl <;> rfl
  · rw [odeintFixed_forward _ _ _ hdir] at h
    simp only [odeintCustom, odeintDirection, getItem, List.getElem?_cons_succ, List.getElem?_cons_zero, pure_bind,
      if_neg (not_lt.2 hdir), if_true]
    rw [h]
    rfl

/-- **C119**, adaptive solvers: an object with stepping class `"adaptive"` is driven by the adaptive loop exactly as a built-in
solver with the same order, constants and step. -/
theorem C119_adaptive_partial (fuel : Nat) (f : ℝ → (ι → ℝ) → Except PyErr (ι → ℝ))
    (step : StepMethod (Except PyErr) ℝ (ι → ℝ) A) (order : Nat) (minFactor maxFactor safety : ℝ) (x : ι → ℝ) (tSpan : List ℝ)
    (atol rtol : ℝ) (useInterp returnAllEval : Bool) (saveAt : List ℝ) (args : A) (sel : Finset ι) :
    ∃ s, (⟨.diffEqSolver, none, some step⟩ : CustomClass (Except PyErr) ℝ (ι → ℝ) A).construct order (some "adaptive")
        minFactor maxFactor safety = .ok s ∧
      odeintCustom fuel f x tSpan s atol rtol useInterp returnAllEval saveAt args sel =
        (odeint fuel f x tSpan ⟨order, true, false, safety, minFactor, maxFactor, step⟩ atol rtol useInterp returnAllEval saveAt
          args sel).map (fun r => match r with | some r => .pair r.1 r.2 | none => .unfinished) := by
  refine ⟨_, rfl, ?_⟩
  simp only [odeintCustom, odeint, bind, Except.bind, pure, Except.pure]
  cases odeintDirection (m := Except PyErr) f tSpan with
  | error e => rfl
  | ok p =>
    simp only [Option.getD_none, Option.getD_some, if_false, if_true, Bool.false_eq_true,
      show ("adaptive" = "fixed") = False from by decide]
    cases getItem (m := Except PyErr) p.2 0 with
    | error e => rfl
    | ok t =>
      simp only []
      cases p.1 t x with
      | error e => rfl
      | ok k1 =>
        simp only []
        cases initStep f k1 x t order atol rtol with
        | error e => rfl
        | ok dt =>
          simp only []
          generalize adaptiveOdeint (odeintCfg p.1 (⟨order, true, false, safety, minFactor, maxFactor, step⟩ :
            Solver (Except PyErr) ℝ (ι → ℝ) A) args atol rtol sel
            (if useInterp = true then some (fourthOrderDense (construct4th ℝ)) else none) returnAllEval) fuel k1 x dt p.2 = r
          rcases r with e | (_ | r) <;> rfl

/-- **C119**, forgotten methods: without `step` the first step raises, `NotImplementedError` for `DiffEqSolver` and `TypeError` for
`SolverTemplate`, on every grid that is accepted. -/
theorem C119_no_step (fuel : Nat) (f : ℝ → (ι → ℝ) → (ι → ℝ)) (order : Nat) (x : ι → ℝ) (t0 t1 : ℝ) (rest : List ℝ)
    (hdir : t0 ≤ t1) (hsep : Separated (t0 :: t1 :: rest)) (atol rtol : ℝ) (useInterp returnAllEval : Bool) (args : A)
    (sel : Finset ι) (base : SolverBase) (e : PyErr)
    (hb : (base = .diffEqSolver ∧ e = .notImplementedError) ∨ (base = .solverTemplate ∧ e = .typeError)) :
    ∃ s, (⟨base, some "fixed", none⟩ : CustomClass (Except PyErr) ℝ (ι → ℝ) A).construct order = .ok s ∧
      odeintCustom fuel (pureField f) x (t0 :: t1 :: rest) s atol rtol useInterp returnAllEval [] args sel = .error e := by
  rw [← assert_iff_separated] at hsep
  rcases hb with ⟨rfl, rfl⟩ | ⟨rfl, rfl⟩
  all_goals
    refine ⟨_, rfl, ?_⟩
    simp only [odeintCustom, odeintDirection, getItem, List.getElem?_cons_succ, List.getElem?_cons_zero, pure_bind,
      if_neg (not_lt.2 hdir), if_true, Option.getD_some, Option.getD_none, fixedOdeint, List.length_nil, if_pos hsep, fixedLoop,
      List.length_cons]
    rw [if_pos (by omega)]
    rfl

/-- **C119 is false** for a stepping class that is neither of the two names, such as `"Adaptive"`: the constructor accepts it, and
`odeint` returns `None` without an error and without evaluating the field, in every monad. A class derived from `SolverTemplate`
without the attribute gives `AttributeError`. -/
theorem C119_stepping_class_refuted {m : Type → Type} [Monad m] [LawfulMonad m] [MonadExcept PyErr m] (fuel : Nat)
    (f : ℝ → (ι → ℝ) → m (ι → ℝ)) (step : StepMethod m ℝ (ι → ℝ) A) (order : Nat) (x : ι → ℝ) (t0 t1 : ℝ) (rest : List ℝ)
    (atol rtol : ℝ) (useInterp returnAllEval : Bool) (saveAt : List ℝ) (args : A) (sel : Finset ι) (cls : String)
    (h1 : cls ≠ "fixed") (h2 : cls ≠ "adaptive") :
    (∃ s, (⟨.diffEqSolver, none, some step⟩ : CustomClass m ℝ (ι → ℝ) A).construct order (some cls) = .ok s ∧
      odeintCustom fuel f x (t0 :: t1 :: rest) s atol rtol useInterp returnAllEval saveAt args sel = pure .nothing) ∧
    (∃ s, (⟨.solverTemplate, none, some step⟩ : CustomClass m ℝ (ι → ℝ) A).construct order = .ok s ∧
      odeintCustom fuel f x (t0 :: t1 :: rest) s atol rtol useInterp returnAllEval saveAt args sel =
        throw PyErr.attributeError) := by
  constructor
  · refine ⟨_, rfl, ?_⟩
    simp only [odeintCustom, odeintDirection, getItem, List.getElem?_cons_succ, List.getElem?_cons_zero, pure_bind]
    split <;> simp [h1, h2]
  · refine ⟨_, rfl, ?_⟩
    simp only [odeintCustom, odeintDirection, getItem, List.getElem?_cons_succ, List.getElem?_cons_zero, pure_bind]
    split <;> simp

/-- Non-vacuity: Heun's method, written by a user, over one step of `x' = x`. -/
example : ∃ s sol, (⟨.diffEqSolver, some "fixed", some fun f x t dt _ _ => do
      let k ← f t x
      let k' ← f (t + dt) (x + dt • k)
      pure (.three none (x + (dt / 2) • (k + k')) none)⟩ :
        CustomClass (Except PyErr) ℝ (Fin 1 → ℝ) Unit).construct 2 = .ok s ∧
    odeintCustom 0 (pureField fun _ x => x) (fun _ => 1) [0, 1] s 1 1 false false [] () Finset.univ = .ok (.pair [0, 1] sol) ∧
    sol[1]? = some fun _ => 5 / 2 := by
  obtain ⟨s, sol, h1, h2, h3⟩ := C119_fixed_partial (A := Unit) (args := ()) (ι := Fin 1) 0 (f := fun _ x => x)
    (step := fun f x t dt _ _ => do
      let k ← f t x
      let k' ← f (t + dt) (x + dt • k)
      pure (.three none (x + (dt / 2) • (k + k')) none))
    (φ := fun x t dt => x + (dt / 2) • (x + (x + dt • x))) .diffEqSolver (Or.inl rfl) (fun x t dt => ⟨none, none, rfl⟩) 2
    (fun _ => 1) 0 1 [] (by norm_num) (by simp [Separated, Close, abs_of_pos]; norm_num) 1 1 false false Finset.univ
  refine ⟨s, sol, h1, h2, ?_⟩
  rw [h3.next 0 0 1 (fun _ => 1) rfl rfl h3.start]
  congr 1
  funext i
  norm_num

end Torchdyn
