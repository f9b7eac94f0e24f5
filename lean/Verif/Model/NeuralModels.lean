import Verif.Model.DEFunc
import Verif.Model.Sensitivity
import Verif.Model.Sde

/-!
The user-facing classes of /repo/torchdyn/core/neuralde.py: `NeuralODE.forward`, `NeuralODE.trajectory` (124-143),
`NeuralSDE` (155-294) and `MultipleShootingLayer` (297-345), with the constructor of `ODEProblem`
(/repo/torchdyn/core/problems.py:56-74) as far as it chooses solvers, and `SDEProblem` (problems.py:263-321).

A batch of states of width `w` is an element of `Fin w × β → ℝ`: `β` indexes the samples. Its list of columns, each an
element of `β → ℝ`, is what the wrappers of `Verif.Model.DEFunc` see.
-/

namespace Torchdyn

/-! ### `ODEProblem.__init__` -/

/-- A solver argument of `ODEProblem` (problems.py:22, 28): `None`, a name, or a solver object. -/
inductive SolverArg (S : Type)
  | none
  | name (s : String)
  | object (s : S)

/-- problems.py:56-61: the solver and the adjoint solver stored by `ODEProblem`. A name is looked up
(`lookup`, `KeyError` for unknown ones); an adjoint solver that is given, whatever it is, goes through `str_to_solver`,
i.e. through a dictionary whose keys are names: an object raises `KeyError`. -/
def odeProblemSolvers {S : Type} (lookup : String → Except PyErr S) (solver adjoint : SolverArg S) :
    Except PyErr (Option S × Option S) := do
  let solver ← match solver with
    | .name s => do
      let r ← lookup s
      pure (some r)
    | .object o => pure (some o)
    | .none => pure none
  match adjoint with
  | .none => pure (solver, solver)
  | .name s => do
    let r ← lookup s
    pure (solver, some r)
  | .object _ => throw PyErr.keyError

/-! ### `NeuralODE` -/

section neuralOde

variable {A β : Type} [Fintype β]

/-- The columns `x[:, 0], x[:, 1], …` of a batch. -/
def columns {w : Nat} (x : Fin w × β → ℝ) : List (β → ℝ) := List.ofFn (fun i b => x (i, b))

/-- The vector field object as the function handed to `odeint`; see `Obj.field`. -/
noncomputable def Obj.batchField (empty : A) (o : Obj ℝ (β → ℝ) A) (w : Nat) (t : ℝ) (x : Fin w × β → ℝ) :
    Except PyErr (Fin w × β → ℝ) :=
  (o.field empty w t (fun i b => x (i, b))).map (fun y p => y p.1 p.2)

/-- The settings stored by the constructor of `NeuralODE` (neuralde.py:72-94) that matter for integration. -/
structure NeuralOdeCfg (A : Type) (ι : Type) where
  solver : Solver (Except PyErr) ℝ (ι → ℝ) A
  atol : ℝ
  rtol : ℝ
  useInterp : Bool
  returnTEval : Bool

/-- What `forward` returns: `(t_eval, sol)` or `sol`. -/
inductive ForwardOut (ι : Type)
  | pair (tEval : List ℝ) (sol : List (ι → ℝ))
  | sol (sol : List (ι → ℝ))

/-- `torch.linspace(0, 1, 2)`. -/
def defaultSpan : List ℝ := [0, 1]

/-- neuralde.py:124-136 `NeuralODE.forward`, with problems.py:157-159: the updated model (the control values of its
submodules; the counter `nfe` is the subject of C51) and the result. `none` inside: not finished within the fuel. -/
noncomputable def NeuralOde.forward (fuel : Nat) (empty : A) (isEmpty : A → Bool) {w : Nat}
    (cfg : NeuralOdeCfg A (Fin w × β)) (n : NeuralOde ℝ (β → ℝ) A) (x : Fin w × β → ℝ) (tSpan : Option (List ℝ))
    (saveAt : List ℝ) (args : A) :
    NeuralOde ℝ (β → ℝ) A × Except PyErr (Option (ForwardOut (Fin w × β))) :=
  let p := n.prep defaultSpan (columns x) tSpan
  (p.1, do
    let r ← odeProblemOdeint fuel n.sensitivity (p.1.vf.batchField empty w) x p.2 cfg.solver cfg.atol cfg.rtol
      cfg.useInterp saveAt args isEmpty empty
    pure (r.map (fun r => if cfg.returnTEval then .pair r.1 r.2 else .sol r.2)))

/-- neuralde.py:138-143 `NeuralODE.trajectory`: `odeint` with the defaults for `interpolator`, `save_at` and `args`. -/
noncomputable def NeuralOde.trajectory (fuel : Nat) (empty : A) {w : Nat}
    (cfg : NeuralOdeCfg A (Fin w × β)) (n : NeuralOde ℝ (β → ℝ) A) (x : Fin w × β → ℝ) (tSpan : Option (List ℝ)) :
    NeuralOde ℝ (β → ℝ) A × Except PyErr (Option (List (Fin w × β → ℝ))) :=
  let p := n.prep defaultSpan (columns x) tSpan
  (p.1, do
    let r ← odeint fuel (p.1.vf.batchField empty w) x p.2 cfg.solver cfg.atol cfg.rtol false false [] empty Finset.univ
    pure (r.map (fun r => r.2)))

end neuralOde

/-! ### `NeuralSDE` -/

section neuralSde

variable {m : Type → Type} [Monad m] [MonadExcept PyErr m] {K V : Type} [Field K] [LinearOrder K] [CommRing V]
  [Algebra K V]

/-- The attributes of a `NeuralSDE` (neuralde.py:156-217) used by its methods. Drift and diffusion are the methods `f`,
`g` of its `SDEFunc` (adaptation of signatures and data control: `Verif.Model.DEFunc`). -/
structure NeuralSde (m : Type → Type) (K V : Type) where
  f : K → V → m V
  g : K → V → m V
  noiseType : String
  sdeType : String
  solver : String
  sensitivity : String
  tSpan : Option (List K)
  bm : Option (K → K → m V)
  returnTEval : Bool

/-- neuralde.py:156-217, the constructor: orders other than one raise `NotImplementedError`. Defaults as in the
signature. -/
def NeuralSde.make (f g : K → V → m V) (order : Nat := 1) (solver : String := "euler")
    (noiseType : String := "diagonal") (sdeType : String := "ito") (tSpan : Option (List K) := some [0, 1])
    (sensitivity : String := "autograd") (bm : Option (K → K → m V) := none) (returnTEval : Bool := true) :
    m (NeuralSde m K V) :=
  if order ≠ 1 then throw PyErr.notImplementedError
  else pure ⟨f, g, noiseType, sdeType, solver, sensitivity, tSpan, bm, returnTEval⟩

/-- The attribute `bm` in call position: `None` is not callable. -/
def callBm (bm : Option (K → K → m V)) : K → K → m V :=
  match bm with
  | some b => b
  | none => fun _ _ => throw PyErr.typeError

/-- What `forward` returns. -/
inductive SdeForwardOut (K V : Type)
  | pair (tEval : List K) (sol : List V)
  | sol (sol : List V)
  deriving DecidableEq

/-- neuralde.py:219-252 `_prep_sdeint` and `NeuralSDE.forward`, problems.py:286-309 `SDEProblem.sdeint`. The data-control
assignment is not represented here. -/
def NeuralSde.forward (sqrt : K → K) (n : NeuralSde m K V) (x : V) (tSpan : Option (List K)) (saveAt : List K) :
    m (SdeForwardOut K V) := do
  let ts := match tSpan, n.tSpan with
    | none, none => [0, 1]
    | none, some ts => ts
    | some ts, _ => ts
  if n.sensitivity = "autograd" then do
    let r ← sdeint sqrt (.sdeFunc ⟨n.f, n.g, some n.noiseType, some n.sdeType⟩) x ts (.inl n.solver) (callBm n.bm) saveAt
    pure (if n.returnTEval then .pair r.1 r.2 else .sol r.2)
  else throw PyErr.notImplementedError

/-- neuralde.py:254-265 `NeuralSDE.trajectory`: `self._prep_sdeint(x)` lacks the required argument `t_span`. -/
def NeuralSde.trajectory (_ : NeuralSde m K V) (_x : V) (_tSpan : List K) : m (List V) := throw PyErr.typeError

/-- neuralde.py:267-268 `NeuralSDE.backward_trajectory`. -/
def NeuralSde.backwardTrajectory (_ : NeuralSde m K V) (_x : V) (_tSpan : List K) : m (List V) :=
  throw PyErr.notImplementedError

end neuralSde

/-! ### `MultipleShootingLayer` -/

/-- neuralde.py:297-345: the ten arguments are passed on by position to `MultipleShootingProblem` (problems.py:163-175),
whose parameters are the same in the same order; the ones that matter for the forward values are kept. -/
def multipleShootingLayer (solver : String) (sensitivity : String := "autograd") (maxiter : Nat := 4)
    (fineSteps : Nat := 4) : MsProblem :=
  MsProblem.make solver sensitivity maxiter fineSteps

end Torchdyn
