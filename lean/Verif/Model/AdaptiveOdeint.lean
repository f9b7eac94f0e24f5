import Verif.Model.Steppers

/-!
Adaptive integration: /repo/torchdyn/numerics/odeint.py:326-408 `_adaptive_odeint`.

Time arithmetic is bare (`+`, `-`, `<`, `≤`, `=`), so that nothing is assumed about it in the
definitions. The stepper argument is `solver.step(f, x, t, dt, k1=k1, args=args)` already applied to
the field and to `args`; the error ratio (odeint.py:365-372) and the step size controller
(odeint.py:403-407) are parameters, instantiated in `Verif.Model.Api`.
-/

namespace Torchdyn

/-- Parameters of the adaptive loop that do not change while it runs. -/
structure AdaptiveCfg (m : Type → Type) (K V : Type) where
  /-- `solver.step(f, x, t, dt, k1=k1, args=args)` as a function of `x t dt k1` -/
  step : V → K → K → V → m (StepOut V)
  /-- `error_ratio` as a function of `x x_new x_err` (odeint.py:365-372) -/
  errRatio : V → V → V → K
  /-- `adapt_step` as a function of `dt error_ratio` (odeint.py:403-407) -/
  adapt : K → K → K
  /-- the interpolator, if any: `t dt k1 f_new x x_new stages t_query ↦ x_in` (odeint.py:380-384) -/
  interp : Option (K → K → V → V → V → V → List V → K → V)
  returnAllEval : Bool

/-- The local variables of the loop. -/
structure AState (K V : Type) where
  t : K
  dt : K
  x : V
  k1 : V
  ckpt : Nat
  ckptFlag : Bool
  dtOld : K
  evalTimes : List K
  sol : List V

section

variable {m : Type → Type} [Monad m] [MonadExcept PyErr m] {K V : Type}
  [Add K] [Sub K] [One K] [LT K] [DecidableLT K] [LE K] [DecidableLE K] [DecidableEq K]

/-- odeint.py:379-387, `while ckpt_counter < len(t_eval) and t + dt > t_eval[ckpt_counter]`: appends
the interpolated states of the checkpoints that lie strictly before `tNew = t + dt`. The list `rest`
is `t_eval[ckpt_counter:]`. -/
def interpCkpts (dense : K → V) (tNew : K) :
    (rest : List K) → (ckpt : Nat) → (evalTimes : List K) → (sol : List V) →
      Nat × List K × List V
  | [], ckpt, evalTimes, sol => (ckpt, evalTimes, sol)
  | te :: rest, ckpt, evalTimes, sol =>
    if te < tNew then
      interpCkpts dense tNew rest (ckpt + 1) (evalTimes ++ [te]) (sol ++ [dense te])
    else (ckpt, evalTimes, sol)

/-- odeint.py:352-353: do not step past the final time. -/
def clampDt (T : K) (s : AState K V) : K := if T < s.t + s.dt then T - s.t else s.dt

/-- odeint.py:355-361: checkpointing by resetting `dt`. Returns `(dt, dt_old, ckpt_flag)`. -/
def checkpointDt (hasInterp : Bool) (tEval : List K) (s : AState K V) (dt : K) : K × K × Bool :=
  match tEval[s.ckpt]? with
  | some te =>
    if te < s.t + dt then
      if hasInterp then (dt, s.dtOld, s.ckptFlag) else (te - s.t, dt, true)
    else (dt, s.dtOld, s.ckptFlag)
  | none => (dt, s.dtOld, s.ckptFlag)

/-- odeint.py:377-387: checkpointing via interpolation (nothing without interpolator). Returns
`(ckpt_counter, eval_times, sol)`. -/
def interpPhase (cfg : AdaptiveCfg m K V) (tEval : List K) (s : AState K V) (dt : K)
    (fNew xNew : V) (stages : List V) : Nat × List K × List V :=
  match cfg.interp with
  | some dense =>
    interpCkpts (fun tq => dense s.t dt s.k1 fNew s.x xNew stages tq) (s.t + dt)
      (tEval.drop s.ckpt) s.ckpt s.evalTimes s.sol
  | none => (s.ckpt, s.evalTimes, s.sol)

/-- odeint.py:376-395: what happens to the state when the step is accepted. `IndexError` arises at
line 389 when all checkpoints have been consumed. -/
def acceptStep (cfg : AdaptiveCfg m K V) (tEval : List K) (s : AState K V) (dt : K)
    (fNew xNew : V) (stages : List V) : m (AState K V) := do
  let (ckpt, evalTimes, sol) := interpPhase cfg tEval s dt fNew xNew stages
  let te ← getItem tEval ckpt
  let hit := s.t + dt = te
  let sol := if hit ∨ cfg.returnAllEval then sol ++ [xNew] else sol
  let evalTimes := if hit ∨ cfg.returnAllEval then evalTimes ++ [s.t + dt] else evalTimes
  let ckpt := if hit then ckpt + 1 else ckpt
  pure { s with t := s.t + dt, x := xNew, k1 := fNew, ckpt, evalTimes, sol }

/-- odeint.py:352-407: one iteration of `while t < T`. -/
def adaptiveIter (cfg : AdaptiveCfg m K V) (tEval : List K) (T : K) (s : AState K V) :
    m (AState K V) := do
  let dt := clampDt T s
  let (dt, dtOld, ckptFlag) := checkpointDt cfg.interp.isSome tEval s dt
  let (fNew, xNew, xErr, stages) ← (← cfg.step s.x s.t dt s.k1).unpack4
  let errorRatio := cfg.errRatio s.x xNew xErr
  let s' ← if errorRatio ≤ 1 then acceptStep cfg tEval s dt fNew xNew stages else pure s
  let dt := if ckptFlag then dtOld - dt else dt
  pure { s' with dt := cfg.adapt dt errorRatio, dtOld, ckptFlag := false }

/-- odeint.py:351-407: the `while t < T` loop, at most `fuel` tests of its condition; `none` when the
fuel is exhausted before the loop exits. -/
def adaptiveLoop (cfg : AdaptiveCfg m K V) (tEval : List K) (T : K) :
    (fuel : Nat) → AState K V → m (Option (AState K V))
  | 0, _ => pure none
  | fuel + 1, s =>
    if s.t < T then do
      let s ← adaptiveIter cfg tEval T s
      adaptiveLoop cfg tEval T fuel s
    else pure (some s)

/-- odeint.py:348-350: the initial values of the loop variables. `dt_old` is unbound in Python until
the first checkpoint; it is only read when `ckpt_flag` is set, after being assigned. -/
def adaptiveInit (k1 x : V) (dt t : K) : AState K V :=
  { t, dt, x, k1, ckpt := 0, ckptFlag := false, dtOld := dt, evalTimes := [t], sol := [x] }

/-- odeint.py:326-408 `_adaptive_odeint`. -/
def adaptiveOdeint (cfg : AdaptiveCfg m K V) (fuel : Nat) (k1 x : V) (dt : K) (tSpan : List K) :
    m (Option (List K × List V)) := do
  let tEval := tSpan.drop 1
  let t ← getItem tSpan 0
  let T ← getItem tSpan (tSpan.length - 1)
  let r ← adaptiveLoop cfg tEval T fuel (adaptiveInit k1 x dt t)
  pure (r.map (fun s => (s.evalTimes, s.sol)))

end

end Torchdyn
