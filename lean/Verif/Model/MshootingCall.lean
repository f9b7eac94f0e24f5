import Verif.Model.OdeintCall
import Verif.Model.ParallelEuler

/-!
`odeint_mshooting` as it is called, /repo/torchdyn/numerics/odeint.py:153-179: the parallel-in-time solver as a name or as an object,
its coarse and fine methods as names or as objects (/repo/torchdyn/numerics/solvers/templates.py:67-81). Devices and dtypes are not
modelled; of `sync_device_dtype` only the attribute look-ups remain.
-/

namespace Torchdyn

variable {m : Type → Type} [Monad m] [MonadExcept PyErr m] {A : Type}

/-- The classes of ode.py:211-317: those of `MS_SOLVER_DICT` and `MSForward`, which has no name. -/
inductive MsClass
  | forward
  | named (c : MSSolverClass)
  deriving DecidableEq

/-- An object of one of these classes. `none`: the attribute was not set. -/
structure MsSolver (m : Type → Type) (A : Type) where
  cls : MsClass
  coarse : Option (SolverFamily m ℝ A)
  fine : Option (SolverFamily m ℝ A)

/-- templates.py:72-73: the attribute is set if the method is a string, and otherwise not at all. `family c` is the class `c`. -/
def methodAttr (family : SolverClass → SolverFamily m ℝ A) :
    String ⊕ SolverFamily m ℝ A → Except PyErr (Option (SolverFamily m ℝ A))
  | .inl name =>
    match strToSolver name with
    | .ok c => .ok (some (family c))
    | .error e => .error e
  | .inr _ => .ok none

/-- templates.py:67-73 `MultipleShootingDiffeqSolver.__init__`, called by the constructors of ode.py:213-289. -/
def MsSolver.make (family : SolverClass → SolverFamily m ℝ A) (cls : MsClass) (coarse fine : String ⊕ SolverFamily m ℝ A) :
    Except PyErr (MsSolver m A) :=
  match methodAttr family coarse with
  | .error e => .error e
  | .ok c =>
    match methodAttr family fine with
    | .error e => .error e
    | .ok f => .ok ⟨cls, c, f⟩

/-- The default methods: ode.py:213, 223, 253 and 285. -/
def defaultMethods : MsClass → String × String
  | .named .parallelImplicitEuler => ("euler", "euler")
  | _ => ("euler", "rk4")

/-- odeint.py:170-171, ode.py:339-342 `str_to_ms_solver`: an object of the class with the default methods. -/
def msSolverOf (family : SolverClass → SolverFamily m ℝ A) : String ⊕ MsSolver m A → Except PyErr (MsSolver m A)
  | .inl name =>
    match strToMsSolver name with
    | .error e => .error e
    | .ok c => MsSolver.make family (.named c) (.inl (defaultMethods (.named c)).1) (.inl (defaultMethods (.named c)).2)
  | .inr s => .ok s

/-- An attribute of a `nn.Module`: `AttributeError` if it was not set. -/
def attr {α : Type 1} {β : Type} : Option α → (α → m β) → m β
  | none, _ => throw PyErr.attributeError
  | some a, k => k a

/-- The `sync_device_dtype` methods of templates.py:75-79 (which looks up both methods) and ode.py:291-292 (which does not). -/
def syncDevice {β : Type} (s : MsSolver m A) (k : Unit → m β) : m β :=
  match s.cls with
  | .named .parallelImplicitEuler => k ()
  | _ => attr s.coarse fun _ => attr s.fine fun _ => k ()

/-- odeint.py:153-179 `odeint_mshooting`. `B0 = none` computes the first guess with `odeint` and the coarse method, at the default
tolerances `1e-3` (odeint.py:29, 175); `fuel` bounds the tests of its loop condition if the method is adaptive. The classes `ieuler`
and `alf` are given by `family`; the optimiser of `ParallelImplicitEuler` and the derivatives of `MSBackward` are parameters.
`MSForward.root_solve` takes four arguments and is called with seven (ode.py:216, odeint.py:178). -/
noncomputable def odeintMshootingCall {ι : Type} [Fintype ι] (family : SolverClass → SolverFamily m ℝ A)
    (vjp : List ℝ → (ι → ℝ) → (ι → ℝ) → (ι → ℝ))
    (minimise : (List (ι → ℝ) → m ℝ) → List (ι → ℝ) → m (List (ι → ℝ))) (fuel : Nat)
    (f : ℝ → (ι → ℝ) → m (ι → ℝ)) (fs : (k : Nat) → ℝ → (Fin k → ι → ℝ) → m (Fin k → ι → ℝ)) (x : ι → ℝ) (tSpan : List ℝ)
    (solver : String ⊕ MsSolver m A) (B0 : Option (List (ι → ℝ))) (fineSteps maxiter : Nat) (args : A) :
    m (Option (List ℝ × List (ι → ℝ))) :=
  match msSolverOf family solver with
  | .error e => throw e
  | .ok s => syncDevice s fun _ => do
    let B0 ← match B0 with
      | some B0 => pure (some B0)
      | none => attr s.coarse fun S => do
        let r ← odeint fuel f x tSpan (S (ι → ℝ)) (1 / 1000) (1 / 1000) false false [] args Finset.univ
        pure (r.map (·.2))
    match B0 with
    | none => pure none
    | some B0 => do
      let B ← match s.cls with
        | .forward => throw PyErr.typeError
        | .named .msZero => attr s.coarse fun C => attr s.fine fun F => msZero C F args f fs tSpan B0 fineSteps maxiter
        | .named .msBackward => attr s.fine fun F => msBackward vjp F args fs tSpan B0 fineSteps maxiter
        | .named .parallelImplicitEuler => pieRootSolve minimise f x tSpan B0
      pure (some (tSpan, B))

end Torchdyn
