import Verif.Model.Steppers

/-!
Fixed-step integration: /repo/torchdyn/numerics/odeint.py:411-445 `_fixed_odeint`.

`K` carries bare arithmetic (`+`, `-`) and the closeness test is a parameter, so the same code can be
read with exact or rounded time arithmetic. The stepper argument is `solver.step(f, ·, ·, ·, None,
args)` already applied to the field and to `args`.
-/

namespace Torchdyn

variable {m : Type → Type} [Monad m] [MonadExcept PyErr m] {K V : Type} [Add K] [Sub K]

/-- odeint.py:427-434, the `while steps <= len(t_span) - 1` loop. `fuel` counts down; the loop is
entered with `fuel = len(t_span)`, which is never exhausted because `steps` grows by one. -/
def fixedLoop (isclose : K → K → Bool) (step : V → K → K → m (StepOut V)) (tSpan saveAt : List K) :
    (fuel : Nat) → (steps : Nat) → (t dt : K) → (x : V) → (sol : List V) → m (List V)
  | 0, _, _, _, _, sol => pure sol
  | fuel + 1, steps, t, dt, x, sol =>
    if steps ≤ tSpan.length - 1 then do
      let (_, x, _) ← (← step x t dt).unpack3
      let t := t + dt
      let sol := if closeCount isclose t saveAt ≠ 0 then sol ++ [x] else sol
      let dt ← if steps < tSpan.length - 1 then do
          let tn ← getItem tSpan (steps + 1)
          pure (tn - t)
        else pure dt
      fixedLoop isclose step tSpan saveAt fuel (steps + 1) t dt x sol
    else pure sol

/-- odeint.py:411-445 `_fixed_odeint`. The final `torch.stack` is the list of states; dictionaries
are treated in `Verif.Model.DictState`. The membership assertion of line 417 compares `save_at` with
itself, as in the code. -/
def fixedOdeint (isclose : K → K → Bool) (step : V → K → K → m (StepOut V)) (x : V)
    (tSpan saveAt : List K) : m (List K × List V) := do
  let saveAt := if saveAt.length = 0 then tSpan else saveAt
  if saveAt.all (fun t => closeCount isclose t saveAt == 1) then
    let t ← getItem tSpan 0
    let t1 ← getItem tSpan 1
    let dt := t1 - t
    let sol := if closeCount isclose t saveAt ≠ 0 then [x] else []
    let sol ← fixedLoop isclose step tSpan saveAt tSpan.length 1 t dt x sol
    let _ ← getItem sol 0
    pure (saveAt, sol)
  else throw PyErr.assertionError

end Torchdyn
