import Verif.Model.Api

/-!
The treatment of the arguments of `odeint` before the integration starts, /repo/torchdyn/numerics/odeint.py:53-79: the forms in
which `t_span` can be given, solvers and interpolators by name. Devices and dtypes (`sync_device_dtype`) are not modelled, and
neither are tuples and tensors of more than two dimensions as `t_span`.
-/

namespace Torchdyn

/-- The values a caller can pass as `t_span` (odeint.py:29, 53-59). -/
inductive TimeArg
  /-- a one-dimensional tensor -/
  | tensor (ts : List ℝ)
  /-- a two-dimensional tensor, by rows -/
  | matrix (rows : List (List ℝ))
  /-- a python list of numbers -/
  | numbers (ts : List ℝ)
  /-- a python list of zero-dimensional tensors -/
  | scalars (ts : List ℝ)
  /-- a python list of one-dimensional tensors -/
  | chunks (ts : List (List ℝ))

/-- The truth value of `a < b` for one-dimensional tensors: ambiguous unless there is a single entry. (An empty comparison is
also counted as ambiguous here; older versions of torch take it to be false.) -/
noncomputable def tensorLt {m : Type → Type} [Monad m] [MonadExcept PyErr m] (a b : List ℝ) : m Bool :=
  match a, b with
  | [u], [v] => pure (decide (u < v))
  | _, _ => throw PyErr.runtimeError

/-- `t_span` after odeint.py:53-59: a tensor of one or of two dimensions. -/
inductive TimeTensor
  | vec (ts : List ℝ)
  | mat (rows : List (List ℝ))

/-- odeint.py:53-59 on the side of `t_span`: whether time is reversed, and the tensor that is used from then on. Negating a
list is a `TypeError` (line 56); `torch.cat` (line 59) takes neither numbers (`TypeError`) nor zero-dimensional tensors
(`RuntimeError`). -/
noncomputable def timeArg {m : Type → Type} [Monad m] [MonadExcept PyErr m] : TimeArg → m (Bool × TimeTensor)
  | .tensor ts => do
    let t1 ← getItem ts 1
    let t0 ← getItem ts 0
    if t1 < t0 then pure (true, .vec (ts.map (- ·))) else pure (false, .vec ts)
  | .matrix rows => do
    let r1 ← getItem rows 1
    let r0 ← getItem rows 0
    if ← tensorLt r1 r0 then pure (true, .mat (rows.map (·.map (- ·)))) else pure (false, .mat rows)
  | .numbers ts => do
    let _ ← getItem ts 1
    let _ ← getItem ts 0
    throw PyErr.typeError
  | .scalars ts => do
    let t1 ← getItem ts 1
    let t0 ← getItem ts 0
    if t1 < t0 then throw PyErr.typeError else throw PyErr.runtimeError
  | .chunks ts => do
    let r1 ← getItem ts 1
    let r0 ← getItem ts 0
    if ← tensorLt r1 r0 then throw PyErr.typeError else pure (false, .vec ts.flatten)

/-- interpolators.py:67 `INTERP_DICT`; the only class is `FourthOrder`. -/
def interpDict : List (String × Unit) := [("4th", ())]

/-- interpolators.py:70-73 `str_to_interp`. -/
def strToInterp (name : String) : Except PyErr Unit := dictGet interpDict name

/-- The object made by `str_to_solver` (ode.py:333-336). The solvers `ieuler` (which calls an optimiser) and `alf` (which acts on
pairs) are given as objects. -/
def instantiate {m : Type → Type} [Monad m] {K V A : Type} [Field K] [AddCommGroup V] [Module K V]
    (ieuler alf : Solver m K V A) : SolverClass → Solver m K V A
  | .euler => eulerSolver m K V A
  | .midpoint => midpointSolver m K V A
  | .rungeKutta4 => rk4Solver m K V A
  | .dormandPrince45 => dopri5Solver m K V A
  | .tsitouras45 => tsit5Solver m K V A
  | .implicitEuler => ieuler
  | .asynchronousLeapfrog => alf

/-- An exception or a value, in `m`. -/
def liftExcept {m : Type → Type} [Monad m] [MonadExcept PyErr m] {α : Type} : Except PyErr α → m α
  | .ok a => pure a
  | .error e => throw e

open Classical in
/-- odeint.py:29-91 `odeint` as it is called: `t_span` in any of the forms above, the solver as a name or as an object, the
interpolator as a name or `None`. -/
noncomputable def odeintCall {ι : Type} [Fintype ι] {m : Type → Type} [Monad m] [MonadExcept PyErr m] {A : Type}
    (ieuler alf : Solver m ℝ (ι → ℝ) A) (fuel : Nat) (f : ℝ → (ι → ℝ) → m (ι → ℝ)) (x : ι → ℝ) (tSpan : TimeArg)
    (solver : String ⊕ Solver m ℝ (ι → ℝ) A) (atol rtol : ℝ) (interpolator : Option String) (returnAllEval : Bool)
    (saveAt : List ℝ) (args : A) (sel : Finset ι) : m (Option (List ℝ × List (ι → ℝ))) := do
  let (reversed, ts) ← timeArg tSpan
  let f' := if reversed then reverseField f else f
  let solver ← match solver with
    | .inl name => do
      let c ← liftExcept (strToSolver name)
      pure (instantiate ieuler alf c)
    | .inr s => pure s
  let interpolator := if solver.isTsit5 then none else interpolator
  let interp ← match interpolator with
    | some name => do
      liftExcept (strToInterp name)
      pure (some (fourthOrderDense (construct4th ℝ)))
    | none => pure none
  match ts with
  | .mat _ => throw PyErr.notImplementedError
  | .vec ts =>
    if solver.adaptive then
      let t ← getItem ts 0
      let k1 ← f' t x
      let dt ← initStep f k1 x t solver.order atol rtol
      adaptiveOdeint (odeintCfg f' solver args atol rtol sel interp returnAllEval) fuel k1 x dt ts
    else
      let r ← fixedOdeint torchIsclose (fun x t dt => solver.step f' x t dt none args) x ts saveAt
      pure (some r)

end Torchdyn
