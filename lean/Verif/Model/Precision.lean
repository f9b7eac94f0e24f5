import Verif.Model.FloatTime
import Verif.Model.Steppers

/-!
The floating-point type of the coefficients of a solver: `construct_rk4`, `construct_dopri5`, `construct_tsit5`
(/repo/torchdyn/numerics/solvers/_constants.py) with their argument `dtype`, the constructors and `str_to_solver`
(/repo/torchdyn/numerics/solvers/ode.py), and `sync_device_dtype` (/repo/torchdyn/numerics/solvers/templates.py:30-40), which
converts the tableau of a solver object in place to the type of the state. Simplifications: two types, the exponent range is
unbounded (`Verif.Model.FloatTime`), devices are left out, and the states and times are exact numbers: what is followed here is
the rounding of the coefficients only.
-/

namespace Torchdyn

/-- `torch.float32`, `torch.float64`. -/
inductive Dtype
  | float32 | float64
  deriving DecidableEq, Repr

/-- The number of bits of the significand. -/
def Dtype.bits : Dtype → ℕ
  | .float32 => 24
  | .float64 => 53

/-- `torch.tensor([...], dtype=d)` on a list of python numbers: a literal or a quotient of integers is a `float` of 53 bits, which
is then rounded to `d`. -/
def tensorOf (d : Dtype) (l : List ℚ) : List ℚ := l.map fun q => roundTo d.bits (roundTo 53 q)

/-- `a - b` for tensors of type `d`. -/
def tensorSub (d : Dtype) (a b : List ℚ) : List ℚ := List.zipWith (fun u v => roundTo d.bits (u - v)) a b

/-- _constants.py:20-28 `construct_rk4(dtype)`. -/
def constructRk4At (d : Dtype) : Tableau ℚ where
  c := tensorOf d (constructRk4 ℚ).c
  a := (constructRk4 ℚ).a.map (tensorOf d)
  bsol := tensorOf d (constructRk4 ℚ).bsol
  berr := [0]

/-- _constants.py:31-46 `construct_dopri5(dtype)`: the difference on line 46 is computed in `dtype`. -/
def constructDopri5At (d : Dtype) : Tableau ℚ where
  c := tensorOf d (constructDopri5 ℚ).c
  a := (constructDopri5 ℚ).a.map (tensorOf d)
  bsol := tensorOf d (dopri5Bsol ℚ)
  berr := tensorSub d (tensorOf d (dopri5Bsol ℚ)) (tensorOf d (dopri5Bhat ℚ))

/-- _constants.py:49-112 `construct_tsit5(dtype)`. -/
def constructTsit5At (d : Dtype) : Tableau ℚ where
  c := tensorOf d (constructTsit5 ℚ).c
  a := (constructTsit5 ℚ).a.map (tensorOf d)
  bsol := tensorOf d (tsit5Bsol ℚ)
  berr := tensorSub d (tensorOf d (tsit5Bsol ℚ)) (tensorOf d (tsit5Bhat ℚ))

/-- A built-in solver object: its class and its attribute `tableau`. -/
structure SolverObject where
  cls : SolverClass
  tableau : Option (Tableau ℚ)

/-- The constructors (ode.py:62-67, 76-81, 90-95, 108-119, 139-143, 161-165, 182-187) called with `dtype` as the only argument;
`AsynchronousLeapfrog` takes it for `channel_index` and keeps the default `float32` (its tableau is not used by its step). -/
def SolverClass.new (cls : SolverClass) (d : Dtype) : SolverObject :=
  match cls with
  | .rungeKutta4 => ⟨cls, some (constructRk4At d)⟩
  | .dormandPrince45 => ⟨cls, some (constructDopri5At d)⟩
  | .tsitouras45 => ⟨cls, some (constructTsit5At d)⟩
  | .asynchronousLeapfrog => ⟨cls, some (constructRk4At .float32)⟩
  | .euler | .midpoint | .implicitEuler => ⟨cls, none⟩

/-- `tensor.to(x)` for a state `x` of type `d`. -/
def toDtype (d : Dtype) (l : List ℚ) : List ℚ := l.map (roundTo d.bits)

/-- templates.py:33-35, ode.py:48-50: the tableau of the solver is converted to the type of the state, in place. -/
def SolverObject.sync (d : Dtype) (s : SolverObject) : SolverObject :=
  { s with tableau := s.tableau.map fun tab => ⟨toDtype d tab.c, tab.a.map (toDtype d), toDtype d tab.bsol, toDtype d tab.berr⟩ }

/-- ode.py:333-336 `str_to_solver(solver_name, dtype=torch.float32)`. -/
def strToObject (name : String) (d : Dtype := .float32) : Except PyErr SolverObject :=
  (strToSolver name).map fun cls => cls.new d

/-- odeint.py:62-64 for a state of type `d`: the object the integration uses, which is the object of the caller when one was
passed. -/
def odeintObject (d : Dtype) : String ⊕ SolverObject → Except PyErr SolverObject
  | .inl name => (strToObject name d).map (·.sync d)
  | .inr s => .ok (s.sync d)

/-- problems.py:56-57 of `ODEProblem.__init__` (and so of `NeuralODE`): the attribute `solver`. -/
def problemObject : String ⊕ SolverObject → Except PyErr SolverObject
  | .inl name => strToObject name
  | .inr s => .ok s

/-- templates.py:72-73 and 77-78: a coarse or fine method of multiple shooting, given by name, for a state of type `d`. -/
def shootingObject (d : Dtype) (name : String) : Except PyErr SolverObject :=
  (strToObject name).map (·.sync d)

/-- The coefficients as elements of a field. -/
def Tableau.cast {K : Type} [DivisionRing K] (tab : Tableau ℚ) : Tableau K :=
  ⟨tab.c.map (Rat.cast (K := K)), tab.a.map (·.map (Rat.cast (K := K))), tab.bsol.map (Rat.cast (K := K)), tab.berr.map (Rat.cast (K := K))⟩

/-- The object as a solver of the loops: the steps read the coefficients from `self.tableau` (ode.py:97-104, 145-156, 167-178).
`ieuler` and `alf`, whose steps use no coefficients, are given. -/
def SolverObject.toSolver {m : Type → Type} [Monad m] {K V A : Type} [Field K] [AddCommGroup V] [Module K V]
    (ieuler alf : Solver m K V A) (s : SolverObject) : Solver m K V A :=
  match s.cls, s.tableau with
  | .rungeKutta4, some tab => { rk4Solver m K V A with step := rk4Step tab.cast }
  | .dormandPrince45, some tab => { dopri5Solver m K V A with step := rk7Step tab.cast }
  | .tsitouras45, some tab => { tsit5Solver m K V A with step := rk7Step tab.cast }
  | .euler, _ => eulerSolver m K V A
  | .midpoint, _ => midpointSolver m K V A
  | .implicitEuler, _ => ieuler
  | .asynchronousLeapfrog, _ => alf
  | .rungeKutta4, none => { rk4Solver m K V A with step := rk4Step ⟨[], [], [], []⟩ }
  | .dormandPrince45, none => { dopri5Solver m K V A with step := rk7Step ⟨[], [], [], []⟩ }
  | .tsitouras45, none => { tsit5Solver m K V A with step := rk7Step ⟨[], [], [], []⟩ }

end Torchdyn
