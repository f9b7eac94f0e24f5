import Verif.Model.FixedOdeint

/-!
Dictionary states in `_fixed_odeint`, /repo/torchdyn/numerics/odeint.py:436-439. A dictionary is the list of its items in
insertion order.
-/

namespace Torchdyn

/-- A dictionary state. -/
abbrev DictState (V : Type) := List (String × V)

/-- `final_out[k].append(v)`: `KeyError` when there is no such key. -/
def appendAt {V : Type} (d : DictState (List V)) (k : String) (v : V) : Except PyErr (DictState (List V)) := do
  let _ ← dictGet d k
  pure (d.map (fun p => if p.1 == k then (p.1, p.2 ++ [v]) else p))

/-- odeint.py:438, the inner loop of the comprehension, for a key. Python looks up `final_out[k]` before `x[k]`; both raise
`KeyError`. -/
def appendKey {V : Type} (k : String) : List (DictState V) → DictState (List V) → Except PyErr (DictState (List V))
  | [], out => pure out
  | x :: xs, out => do
    let v ← dictGet x k
    let out ← appendAt out k v
    appendKey k xs out

/-- odeint.py:438: the outer loop, over the keys of the last state computed. -/
def appendKeys {V : Type} (sol : List (DictState V)) : List String → DictState (List V) → Except PyErr (DictState (List V))
  | [], out => pure out
  | k :: ks, out => do
    let out ← appendKey k sol out
    appendKeys sol ks out

/-- odeint.py:436-439: `final_out` for dictionary states; `x` is the last state computed by the loop and `sol` the saved
ones. `torch.stack` is the list. -/
def dictStack {V : Type} (x : DictState V) (sol : List (DictState V)) : Except PyErr (DictState (List V)) := do
  let x0 ← getItem sol 0
  appendKeys (sol.drop 1) (x.map Prod.fst) (x0.map (fun p => (p.1, [p.2])))

variable {K V : Type} [Add K] [Sub K]

/-- odeint.py:427-434 as in `fixedLoop`, returning also the last state computed, which line 438 reads. -/
def fixedLoopLast (isclose : K → K → Bool) (step : V → K → K → Except PyErr (StepOut V)) (tSpan saveAt : List K) :
    (fuel : Nat) → (steps : Nat) → (t dt : K) → (x : V) → (sol : List V) → Except PyErr (V × List V)
  | 0, _, _, _, x, sol => pure (x, sol)
  | fuel + 1, steps, t, dt, x, sol =>
    if steps ≤ tSpan.length - 1 then do
      let (_, x, _) ← (← step x t dt).unpack3
      let t := t + dt
      let sol := if closeCount isclose t saveAt ≠ 0 then sol ++ [x] else sol
      let dt ← if steps < tSpan.length - 1 then do
          let tn ← getItem tSpan (steps + 1)
          pure (tn - t)
        else pure dt
      fixedLoopLast isclose step tSpan saveAt fuel (steps + 1) t dt x sol
    else pure (x, sol)

/-- odeint.py:411-445 `_fixed_odeint` on dictionary states. The stepper is a user-defined solver: `Euler` does not raise in
`sync_device_dtype` (ode.py:36-55) but its step adds dictionaries (`TypeError`), the other solvers raise `AttributeError` on
`x.device` (templates.py:32), and so does a solver given by name on `x.dtype` (odeint.py:63). -/
def fixedOdeintDict (isclose : K → K → Bool) (step : DictState V → K → K → Except PyErr (StepOut (DictState V)))
    (x : DictState V) (tSpan saveAt : List K) : Except PyErr (List K × DictState (List V)) := do
  let saveAt := if saveAt.length = 0 then tSpan else saveAt
  if saveAt.all (fun t => closeCount isclose t saveAt == 1) then
    let t ← getItem tSpan 0
    let t1 ← getItem tSpan 1
    let dt := t1 - t
    let sol := if closeCount isclose t saveAt ≠ 0 then [x] else []
    let (xLast, sol) ← fixedLoopLast isclose step tSpan saveAt tSpan.length 1 t dt x sol
    let out ← dictStack xLast sol
    pure (saveAt, out)
  else throw PyErr.assertionError

end Torchdyn
