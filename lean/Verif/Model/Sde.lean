import Verif.Model.FixedOdeint
import Mathlib.Algebra.Algebra.Basic
import Mathlib.Algebra.Algebra.Pi

/-!
Stochastic differential equations: /repo/torchdyn/numerics/sdeint.py and numerics/solvers/sde.py.

State tensors are elements of a commutative `K`-algebra `V`: tensors of a fixed shape with elementwise
product (`ι → K`) are one. The diffusion has the shape of the state and the Brownian increments too
(diagonal noise); broadcasting between different shapes is not modelled. The Brownian motion object is an
arbitrary (monadic) function of the two end points of an interval, so that queries can be observed.
`sqrt` is a parameter: `Tensor.sqrt`, which gives NaN on negative numbers, where the model says nothing
(theorems only use it at positive step sizes).
-/

namespace Torchdyn

/-- core/defunc.py:96-142 `SDEFunc`: drift, diffusion, and the two type labels. The adaptation to the call
signature of the user's callables (lines 120-142) is modelled in `Verif.Model.DEFunc`. -/
structure SdeFunc (m : Type → Type) (K V : Type) where
  f : K → V → m V
  g : K → V → m V
  noiseType : Option String
  sdeType : Option String

/-- A solver object of solvers/sde.py: the stepping class and the `step(x, t, dt)` method. -/
structure SdeSolver (m : Type → Type) (K V : Type) where
  adaptive : Bool
  step : V → K → K → m (StepOut V)

section steps

variable {m : Type → Type} [Monad m] {K V : Type} [Field K] [CommRing V] [Algebra K V]

/-- sde.py:30-35 `EulerMaruyama.step`. -/
def eulerMaruyamaStep (sde : SdeFunc m K V) (bm : K → K → m V) (x : V) (t dt : K) : m (StepOut V) := do
  let nextT := t + dt
  let f ← sde.f t x
  let g ← sde.g t x
  let b ← bm t nextT
  pure (.three none (x + dt • f + g * b) none)

/-- sde.py:49-60 `EulerHeun.step`. The Brownian motion is queried twice. -/
def eulerHeunStep (sde : SdeFunc m K V) (bm : K → K → m V) (x : V) (t dt : K) : m (StepOut V) := do
  let nextT := t + dt
  let f ← sde.f t x
  let g ← sde.g t x
  let b ← bm t nextT
  let xPrime := x + g * b
  let g' ← sde.g nextT xPrime
  let b' ← bm t nextT
  pure (.three none (x + dt • f + ((1 / 2 : K) • (g + g')) * b') none)

/-- sde.py:78-90 `MilsteinBase.step`; `vTerm` is the method of the subclass. -/
def milsteinStep (sqrt : K → K) (vTerm : V → K → V) (sde : SdeFunc m K V) (bm : K → K → m V)
    (x : V) (t dt : K) : m (StepOut V) := do
  let nextT := t + dt
  let b ← bm t nextT
  let v := vTerm b dt
  let f ← sde.f t x
  let g ← sde.g t x
  let sqrtDt := sqrt dt
  let xPrime := x + dt • f + sqrtDt • g
  let gXPrime ← sde.g t xPrime
  let gdg := gXPrime - g
  pure (.three none (x + dt • f + g * b + ((1 / (2 * sqrtDt)) • gdg) * v) none)

/-- sde.py:98-99 `MilesteinIto.v_term`. -/
def itoTerm (b : V) (dt : K) : V := b ^ 2 - algebraMap K V dt

/-- sde.py:107-108 `MilesteinStratonovich.v_term`. -/
def stratonovichTerm (b : V) (_dt : K) : V := b ^ 2

end steps

/-- The classes of sde.py:117-123 `SDE_SOLVER_DICT`. -/
inductive SdeSolverClass
  | eulerMaruyama | eulerHeun | midpoint | milsteinIto | milsteinStratonovich
  deriving DecidableEq, Repr

/-- sde.py:117-123 `SDE_SOLVER_DICT`. -/
def sdeSolverDict : List (String × SdeSolverClass) :=
  [("euler", .eulerMaruyama), ("eulerHeun", .eulerHeun), ("midpoint", .midpoint),
   ("milstein_ito", .milsteinIto), ("milstein_stratonovich", .milsteinStratonovich)]

section api

variable {m : Type → Type} [Monad m] [MonadExcept PyErr m] {K V : Type} [Field K] [CommRing V]
  [Algebra K V]

/-- sde.py:8-16 `_check_types`. -/
def checkTypes (sde : SdeFunc m K V) (solverSdeType : String) (solverNoiseType : List String) :
    m Unit :=
  if sde.sdeType ≠ some solverSdeType then throw PyErr.valueError
  else match sde.noiseType with
    | some n => if n ∈ solverNoiseType then pure () else throw PyErr.valueError
    | none => throw PyErr.valueError

/-- The list assigned to `solver_noise_type` at sde.py:27, 46, 71. -/
def allNoiseTypes : List String := ["general", "diagonal", "scalar", "additive"]

/-- The constructors: sde.py:20-28 `EulerMaruyama`, 39-47 `EulerHeun` (both check the types), 65-71 and
93-96, 102-105 the Milstein classes (no check), 111-114 `Midpoint`, whose constructor takes two arguments
and is called with three. -/
def mkSdeSolver (sqrt : K → K) (cls : SdeSolverClass) (sde : SdeFunc m K V) (bm : K → K → m V) :
    m (SdeSolver m K V) :=
  match cls with
  | .eulerMaruyama => do
    checkTypes sde "ito" allNoiseTypes
    pure ⟨false, eulerMaruyamaStep sde bm⟩
  | .eulerHeun => do
    checkTypes sde "stratonovich" allNoiseTypes
    pure ⟨false, eulerHeunStep sde bm⟩
  | .midpoint => throw PyErr.typeError
  | .milsteinIto => pure ⟨false, milsteinStep sqrt itoTerm sde bm⟩
  | .milsteinStratonovich => pure ⟨false, milsteinStep sqrt stratonovichTerm sde bm⟩

/-- sde.py:126-129 `sde_str_to_solver`. -/
def sdeStrToSolver (sqrt : K → K) (name : String) (sde : SdeFunc m K V) (bm : K → K → m V) :
    m (SdeSolver m K V) :=
  match sdeSolverDict.find? (fun p => p.1 == name) with
  | some p => mkSdeSolver sqrt p.2 sde bm
  | none => throw PyErr.keyError

/-- What the user may pass as `sde` (sdeint.py:12-30): an `SDEFunc`, or any object, of which only the
presence and the values of the attributes `f`, `g`, `noise_type`, `sde_type` matter. -/
inductive SdeArg (m : Type → Type) (K V : Type)
  | sdeFunc (s : SdeFunc m K V)
  | object (f g : Option (K → V → m V)) (noiseType sdeType : Option (Option String))

/-- sdeint.py:12-30 `check_sde`. -/
def checkSde (sde : SdeArg m K V) : m (SdeFunc m K V) :=
  match sde with
  | .sdeFunc s => pure s
  | .object (some f) (some g) (some noiseType) (some sdeType) => pure ⟨f, g, noiseType, sdeType⟩
  | .object _ _ _ _ => throw PyErr.runtimeError

/-- sdeint.py:91-116 `_fixed_sdeint`. The loop (lines 98-105) is the one of `_fixed_odeint`
(odeint.py:427-434), statement by statement, with `solver.step(x, t, dt)` as stepper; unlike
`_fixed_odeint` there is no assertion on `save_at`. Dictionary states are not modelled here. -/
def fixedSdeint (isclose : K → K → Bool) (step : V → K → K → m (StepOut V)) (x : V)
    (tSpan saveAt : List K) : m (List K × List V) := do
  let t ← getItem tSpan 0
  let t1 ← getItem tSpan 1
  let dt := t1 - t
  let sol := if closeCount isclose t saveAt ≠ 0 then [x] else []
  let sol ← fixedLoop isclose step tSpan saveAt tSpan.length 1 t dt x sol
  let _ ← getItem sol 0
  pure (saveAt, sol)

/-- sdeint.py:33-84 `sdeint` on a one-dimensional tensor `t_span`; the solver is a name or a solver
object. Device and dtype synchronisation and the warning about tolerances are left out. -/
def sdeint [LinearOrder K] (sqrt : K → K) (sde : SdeArg m K V) (x : V) (tSpan : List K)
    (solver : String ⊕ SdeSolver m K V) (bm : K → K → m V) (saveAt : List K) :
    m (List K × List V) := do
  let sde ← checkSde sde
  let solver ← match solver with
    | .inl name => sdeStrToSolver sqrt name sde bm
    | .inr s => pure s
  let saveAt := if saveAt.length = 0 then tSpan else saveAt
  if solver.adaptive then throw PyErr.notImplementedError
  else fixedSdeint torchIsclose solver.step x tSpan saveAt

end api

end Torchdyn
