import Verif.Model.Py
import Verif.Model.Tableau
import Mathlib.Algebra.Module.Pi
import Mathlib.Algebra.BigOperators.Fin

/-!
One-step methods: /repo/torchdyn/numerics/solvers/ode.py and hyper.py.

State tensors are elements of a `K`-module `V` (the steps act elementwise, so the shape is
irrelevant). Vector fields are monadic, `f : K → V → m V`, so that the same code can be run purely,
with exceptions, or while counting evaluations. The argument `args` of `step` is accepted and never
used by the built-in solvers, as in the code.
-/

namespace Torchdyn

/-- The tuple returned by `solver.step`: three entries for fixed-step solvers
(`None, x_sol, None`), four for `dopri5`/`tsit5` (`k7, x_sol, err, stages`). -/
inductive StepOut (V : Type)
  | three (k : Option V) (x : V) (err : Option V)
  | four (k : V) (x : V) (err : V) (stages : List V)

/-- Second entry of the returned tuple: the new state. -/
def StepOut.newState {V : Type} : StepOut V → V
  | .three _ x _ => x
  | .four _ x _ _ => x

/-- Third entry of the returned tuple: the local error estimate, if any. -/
def StepOut.errEst {V : Type} : StepOut V → Option V
  | .three _ _ e => e
  | .four _ _ e _ => some e

/-- First entry of the returned tuple: the derivative handed to the next step, if any. -/
def StepOut.deriv {V : Type} : StepOut V → Option V
  | .three k _ _ => k
  | .four k _ _ _ => some k

/-- `_, x, _ = solver.step(...)` (odeint.py:428): Python raises `ValueError` when the tuple has
four entries. -/
def StepOut.unpack3 {V : Type} {m : Type → Type} [Monad m] [MonadExcept PyErr m] :
    StepOut V → m (Option V × V × Option V)
  | .three k x e => pure (k, x, e)
  | .four _ _ _ _ => throw PyErr.valueError

/-- `f_new, x_new, x_err, stages = solver.step(...)` (odeint.py:363): `ValueError` when the tuple
has three entries. -/
def StepOut.unpack4 {V : Type} {m : Type → Type} [Monad m] [MonadExcept PyErr m] :
    StepOut V → m (V × V × V × List V)
  | .three _ _ _ => throw PyErr.valueError
  | .four k x e s => pure (k, x, e, s)

/-- A vector field without side effects, as a monadic field. -/
def pureField {m : Type → Type} [Monad m] {K V : Type} (f : K → V → V) : K → V → m V :=
  fun t x => pure (f t x)

/-- `if k1 == None: k1 = f(t, x)`. -/
def firstStage {m : Type → Type} [Monad m] {K V : Type} (f : K → V → m V) (x : V) (t : K)
    (k1 : Option V) : m V :=
  match k1 with
  | none => f t x
  | some k => pure k

section steps

variable {m : Type → Type} [Monad m] {K V A : Type} [Field K] [AddCommGroup V] [Module K V]

/-- ode.py:68-71 `Euler.step`. -/
def eulerStep (f : K → V → m V) (x : V) (t dt : K) (k1 : Option V) (_args : A) :
    m (StepOut V) := do
  let k1 ← firstStage f x t k1
  let xSol := x + dt • k1
  pure (.three none xSol none)

/-- ode.py:82-86 `Midpoint.step`. -/
def midpointStep (f : K → V → m V) (x : V) (t dt : K) (k1 : Option V) (_args : A) :
    m (StepOut V) := do
  let k1 ← firstStage f x t k1
  let xMid := x + ((1 / 2 : K) * dt) • k1
  let k2 ← f (t + (1 / 2 : K) * dt) xMid
  let xSol := x + dt • k2
  pure (.three none xSol none)

/-- ode.py:97-104 `RungeKutta4.step`; the tableau is a parameter (users may tweak it).
Note the indices `c[0], c[1], c[2]` of the code. -/
def rk4Step (tab : Tableau K) (f : K → V → m V) (x : V) (t dt : K) (k1 : Option V) (_args : A) :
    m (StepOut V) := do
  let c := tab.c
  let a := tab.a
  let b := tab.bsol
  let k1 ← firstStage f x t k1
  let k2 ← f (t + nth c 0 * dt) (x + dt • (nth2 a 0 0 • k1))
  let k3 ← f (t + nth c 1 * dt) (x + dt • (nth2 a 1 0 • k1 + nth2 a 1 1 • k2))
  let k4 ← f (t + nth c 2 * dt) (x + dt • (nth2 a 2 0 • k1 + nth2 a 2 1 • k2 + nth2 a 2 2 • k3))
  let xSol := x + dt • (nth b 0 • k1 + nth b 1 • k2 + nth b 2 • k3 + nth b 3 • k4)
  pure (.three none xSol none)

/-- ode.py:145-156 `DormandPrince45.step` and ode.py:167-178 `Tsitouras45.step`: the two bodies are
the same code up to `a[0]`/`a[0][0]` (a one-entry row); the tableau is a parameter. -/
def rk7Step (tab : Tableau K) (f : K → V → m V) (x : V) (t dt : K) (k1 : Option V) (_args : A) :
    m (StepOut V) := do
  let c := tab.c
  let a := tab.a
  let b := tab.bsol
  let e := tab.berr
  let k1 ← firstStage f x t k1
  let k2 ← f (t + nth c 0 * dt) (x + (dt * nth2 a 0 0) • k1)
  let k3 ← f (t + nth c 1 * dt) (x + dt • (nth2 a 1 0 • k1 + nth2 a 1 1 • k2))
  let k4 ← f (t + nth c 2 * dt)
    (x + (dt * nth2 a 2 0) • k1 + (dt * nth2 a 2 1) • k2 + (dt * nth2 a 2 2) • k3)
  let k5 ← f (t + nth c 3 * dt)
    (x + (dt * nth2 a 3 0) • k1 + (dt * nth2 a 3 1) • k2 + (dt * nth2 a 3 2) • k3
      + (dt * nth2 a 3 3) • k4)
  let k6 ← f (t + nth c 4 * dt)
    (x + (dt * nth2 a 4 0) • k1 + (dt * nth2 a 4 1) • k2 + (dt * nth2 a 4 2) • k3
      + (dt * nth2 a 4 3) • k4 + (dt * nth2 a 4 4) • k5)
  let k7 ← f (t + nth c 5 * dt)
    (x + (dt * nth2 a 5 0) • k1 + (dt * nth2 a 5 1) • k2 + (dt * nth2 a 5 2) • k3
      + (dt * nth2 a 5 3) • k4 + (dt * nth2 a 5 4) • k5 + (dt * nth2 a 5 5) • k6)
  let xSol := x + dt • (nth b 0 • k1 + nth b 1 • k2 + nth b 2 • k3 + nth b 3 • k4 + nth b 4 • k5
      + nth b 5 • k6)
  let err := dt • (nth e 0 • k1 + nth e 1 • k2 + nth e 2 • k3 + nth e 3 • k4 + nth e 4 • k5
      + nth e 5 • k6 + nth e 6 • k7)
  pure (.four k7 xSol err [k1, k2, k3, k4, k5, k6, k7])

/-- ode.py:138-156 `DormandPrince45.step` with its own tableau. -/
def dopri5Step (f : K → V → m V) (x : V) (t dt : K) (k1 : Option V) (args : A) :
    m (StepOut V) :=
  rk7Step (constructDopri5 K) f x t dt k1 args

/-- ode.py:160-178 `Tsitouras45.step` with its own tableau. -/
def tsit5Step (f : K → V → m V) (x : V) (t dt : K) (k1 : Option V) (args : A) :
    m (StepOut V) :=
  rk7Step (constructTsit5 K) f x t dt k1 args

/-- ode.py:122-135 `AsynchronousLeapfrog.step`. The state `xv` is the pair of its two halves along
the last dimension (`xv[..., :n//2]`, `xv[..., n//2:]`, even `n`); `torch.cat` rebuilds the pair.
The stage `k1` is evaluated and not used, as in the code. `const` is 1 in the code. -/
def alfStep (adaptive : Bool) (f : K → V → m V) (xv : V × V) (t dt : K) (k1 : Option V)
    (_args : A) : m (StepOut (V × V)) := do
  let const : K := 1
  let x := xv.1
  let v := xv.2
  let _k1 ← firstStage f x t k1
  let x1 := x + ((1 / 2 : K) * dt) • v
  let vt1 ← f (t + (1 / 2 : K) * dt) x1
  let v1 := (2 * const) • (vt1 - v) + v
  let x2 := x1 + ((1 / 2 : K) * dt) • v1
  let xSol := (x2, v1)
  let err := if adaptive then some ((0 : V), v) else none
  pure (.three none xSol err)

/-- The common wrapper of hyper.py:24-26, 35-37, 45-47: the base step plus
`dt ** (order + 1) * hypernet(t, x)`. `args` is not forwarded (`super().step(f, x, t, dt, k1)`),
which is immaterial for the three base solvers since they ignore it. -/
def hyperStep (order : Nat)
    (base : (K → V → m V) → V → K → K → Option V → A → m (StepOut V))
    (hypernet : K → V → m V)
    (f : K → V → m V) (x : V) (t dt : K) (k1 : Option V) (args : A) : m (StepOut V) := do
  match ← base f x t dt k1 args with
  | .three _ xSol _ => do
      let g ← hypernet t x
      pure (.three none (xSol + dt ^ (order + 1) • g) none)
  | .four k xSol e s => pure (.four k xSol e s) -- not reachable for the three base solvers

/-- hyper.py:17-26 `HyperEuler.step`, order 1. -/
def hyperEulerStep (hypernet : K → V → m V) (f : K → V → m V) (x : V) (t dt : K) (k1 : Option V)
    (args : A) : m (StepOut V) :=
  hyperStep 1 eulerStep hypernet f x t dt k1 args

/-- hyper.py:28-37 `HyperMidpoint.step`, order 2. -/
def hyperMidpointStep (hypernet : K → V → m V) (f : K → V → m V) (x : V) (t dt : K)
    (k1 : Option V) (args : A) : m (StepOut V) :=
  hyperStep 2 midpointStep hypernet f x t dt k1 args

/-- hyper.py:39-47 `HyperRungeKutta4.step`, order 4. -/
def hyperRk4Step (hypernet : K → V → m V) (f : K → V → m V) (x : V) (t dt : K)
    (k1 : Option V) (args : A) : m (StepOut V) :=
  hyperStep 4 (rk4Step (constructRk4 K)) hypernet f x t dt k1 args

end steps

/-- ode.py:189-192 `ImplicitEuler._residual` before squaring and summing: `x_sol - x - dt*f(t, x_sol)`.
The field is evaluated at the *old* time `t`, as in the code. -/
def implicitEulerDefect {K V : Type} [Field K] [AddCommGroup V] [Module K V]
    (f : K → V → V) (x : V) (t dt : K) (xSol : V) : V :=
  xSol - x - dt • f t xSol

/-- ode.py:189-192 `ImplicitEuler._residual` on tensors with finitely many entries. -/
def implicitEulerResidual {ι : Type} [Fintype ι] {K : Type} [Field K]
    (f : K → (ι → K) → (ι → K)) (x : ι → K) (t dt : K) (xSol : ι → K) : K :=
  ∑ i, (implicitEulerDefect f x t dt xSol i) ^ 2

/-- ode.py:194-205 `ImplicitEuler.step`. LBFGS is an arbitrary `minimise` procedure that receives
the residual closure and the starting point (a clone of `x`) and returns a point. -/
def implicitEulerStep {ι : Type} [Fintype ι] {K A : Type} [Field K]
    (minimise : ((ι → K) → K) → (ι → K) → (ι → K))
    (f : K → (ι → K) → (ι → K)) (x : ι → K) (t dt : K) (_k1 : Option (ι → K)) (_args : A) :
    StepOut (ι → K) :=
  .three none (minimise (implicitEulerResidual f x t dt) x) none

/-- A solver object: `order`, `stepping_class == 'adaptive'`, `isinstance(_, Tsitouras45)`, the step
size control constants (templates.py:13-28, ode.py:28-34) and the `step` method. A user-defined
solver is any such record. -/
structure Solver (m : Type → Type) (K V A : Type) where
  order : Nat
  adaptive : Bool
  isTsit5 : Bool
  safety : K
  minFactor : K
  maxFactor : K
  step : (K → V → m V) → V → K → K → Option V → A → m (StepOut V)

section builtin

variable (m : Type → Type) [Monad m] (K V A : Type) [Field K] [AddCommGroup V] [Module K V]

/-- ode.py:61-71 `Euler`, constants from `SolverTemplate` ode.py:28-33. -/
def eulerSolver : Solver m K V A := ⟨1, false, false, 9 / 10, 1 / 5, 10, eulerStep⟩
/-- ode.py:75-86 `Midpoint`, constants from templates.py:13-28. -/
def midpointSolver : Solver m K V A := ⟨2, false, false, 9 / 10, 1 / 5, 10, midpointStep⟩
/-- ode.py:89-104 `RungeKutta4`. -/
def rk4Solver : Solver m K V A := ⟨4, false, false, 9 / 10, 1 / 5, 10, rk4Step (constructRk4 K)⟩
/-- ode.py:138-156 `DormandPrince45`. -/
def dopri5Solver : Solver m K V A := ⟨5, true, false, 9 / 10, 1 / 5, 10, dopri5Step⟩
/-- ode.py:160-178 `Tsitouras45`. -/
def tsit5Solver : Solver m K V A := ⟨5, true, true, 9 / 10, 1 / 5, 10, tsit5Step⟩

end builtin

/-- The classes named by `SOLVER_DICT` (ode.py:320-325). -/
inductive SolverClass
  | euler | midpoint | rungeKutta4 | dormandPrince45 | tsitouras45 | implicitEuler
  | asynchronousLeapfrog
  deriving DecidableEq, Repr

/-- ode.py:320-325 `SOLVER_DICT`, in order. -/
def solverDict : List (String × SolverClass) :=
  [("euler", .euler), ("midpoint", .midpoint),
   ("rk4", .rungeKutta4), ("rk-4", .rungeKutta4), ("RungeKutta4", .rungeKutta4),
   ("dopri5", .dormandPrince45), ("DormandPrince45", .dormandPrince45),
   ("DormandPrince5", .dormandPrince45),
   ("tsit5", .tsitouras45), ("Tsitouras45", .tsitouras45), ("Tsitouras5", .tsitouras45),
   ("ieuler", .implicitEuler), ("implicit_euler", .implicitEuler),
   ("alf", .asynchronousLeapfrog), ("AsynchronousLeapfrog", .asynchronousLeapfrog)]

/-- The classes named by `MS_SOLVER_DICT` (ode.py:328-330). -/
inductive MSSolverClass
  | msZero | msBackward | parallelImplicitEuler
  deriving DecidableEq, Repr

/-- ode.py:328-330 `MS_SOLVER_DICT`. -/
def msSolverDict : List (String × MSSolverClass) :=
  [("mszero", .msZero), ("zero", .msZero), ("parareal", .msZero),
   ("msbackward", .msBackward), ("backward", .msBackward), ("discrete-adjoint", .msBackward),
   ("ieuler", .parallelImplicitEuler), ("parallel-implicit-euler", .parallelImplicitEuler)]

/-- Python dictionary look-up `d[k]`. -/
def dictGet {α : Type} (d : List (String × α)) (k : String) : Except PyErr α :=
  match d.find? (fun p => p.1 == k) with
  | some p => .ok p.2
  | none => .error .keyError

/-- ode.py:333-336 `str_to_solver`: the class that is instantiated. -/
def strToSolver (name : String) : Except PyErr SolverClass := dictGet solverDict name

/-- ode.py:339-342 `str_to_ms_solver`. -/
def strToMsSolver (name : String) : Except PyErr MSSolverClass := dictGet msSolverDict name

end Torchdyn
