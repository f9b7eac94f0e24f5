import Verif.Model.FixedOdeint
import Verif.Model.AdaptiveOdeint
import Verif.Model.Controller
import Verif.Model.Interp

/-!
The public entry point `odeint`: /repo/torchdyn/numerics/odeint.py:29-91.
-/

namespace Torchdyn

/-- odeint.py:56 `f_ = lambda t, x: -f(-t, x)`. -/
def reverseField {m : Type → Type} [Monad m] {K V : Type} [Neg K] [Neg V] (f : K → V → m V) :
    K → V → m V :=
  fun t x => do
    let y ← f (-t) x
    pure (-y)

/-- odeint.py:54-58: the direction test and the (field, grid) actually integrated. Python evaluates
`t_span[1]` first, `t_span[0]` second; both raise `IndexError` on short grids. Only 1-d tensors are
modelled (lists go through `torch.cat`, higher-dimensional grids raise `NotImplementedError`). -/
def odeintDirection {m : Type → Type} [Monad m] [MonadExcept PyErr m] {K V : Type}
    [Neg K] [LT K] [DecidableLT K] [Neg V] (f : K → V → m V) (tSpan : List K) :
    m ((K → V → m V) × List K) := do
  let t1 ← getItem tSpan 1
  let t0 ← getItem tSpan 0
  if t1 < t0 then pure (reverseField f, tSpan.map (fun t => -t))
  else pure (f, tSpan)

/-- odeint.py:29-91 with a fixed-step solver object (lines 80-85): tolerances have no effect. -/
def odeintFixed {m : Type → Type} [Monad m] [MonadExcept PyErr m] {K V A : Type}
    [Field K] [LinearOrder K] [AddCommGroup V]
    (f : K → V → m V) (x : V) (tSpan : List K) (solver : Solver m K V A) (saveAt : List K)
    (args : A) : m (List K × List V) := do
  let (f', ts) ← odeintDirection f tSpan
  fixedOdeint torchIsclose (fun x t dt => solver.step f' x t dt none args) x ts saveAt

/-- The configuration of the adaptive loop used by `odeint` (odeint.py:363-407) for a solver object:
error ratio with tolerances and seminorm selection `sel`, and `adapt_step` with the solver's
constants. -/
noncomputable def odeintCfg {ι : Type} {m : Type → Type} [Monad m] {A : Type}
    (f : ℝ → (ι → ℝ) → m (ι → ℝ)) (solver : Solver m ℝ (ι → ℝ) A) (args : A) (atol rtol : ℝ)
    (sel : Finset ι)
    (interp : Option (ℝ → ℝ → (ι → ℝ) → (ι → ℝ) → (ι → ℝ) → (ι → ℝ) → List (ι → ℝ) → ℝ → (ι → ℝ)))
    (returnAllEval : Bool) : AdaptiveCfg m ℝ (ι → ℝ) where
  step x t dt k1 := solver.step f x t dt (some k1) args
  errRatio := errorRatio sel atol rtol
  adapt dt er := adaptStep dt er solver.safety solver.minFactor solver.maxFactor solver.order
  interp := interp
  returnAllEval := returnAllEval

open Classical in
/-- odeint.py:29-91 `odeint` on real tensors, for a solver object. `useInterp` is
`interpolator == '4th'` (lines 72-74); it is discarded for `tsit5` (lines 68-70). `fuel` bounds the
number of tests of the adaptive loop condition (`none`: not finished). The initial step is computed
with the *original* field `f` and the negated time when time is reversed, as in line 89. -/
noncomputable def odeint {ι : Type} [Fintype ι] {m : Type → Type} [Monad m] [MonadExcept PyErr m]
    {A : Type} (fuel : Nat)
    (f : ℝ → (ι → ℝ) → m (ι → ℝ)) (x : ι → ℝ) (tSpan : List ℝ) (solver : Solver m ℝ (ι → ℝ) A)
    (atol rtol : ℝ) (useInterp returnAllEval : Bool) (saveAt : List ℝ) (args : A)
    (sel : Finset ι) : m (Option (List ℝ × List (ι → ℝ))) := do
  let (f', ts) ← odeintDirection f tSpan
  let useInterp := if solver.isTsit5 then false else useInterp
  let interp := if useInterp then some (fourthOrderDense (construct4th ℝ)) else none
  if solver.adaptive then
    let t ← getItem ts 0
    let k1 ← f' t x
    let dt ← initStep f k1 x t solver.order atol rtol
    adaptiveOdeint (odeintCfg f' solver args atol rtol sel interp returnAllEval) fuel k1 x dt ts
  else
    let r ← fixedOdeint torchIsclose (fun x t dt => solver.step f' x t dt none args) x ts saveAt
    pure (some r)

end Torchdyn
