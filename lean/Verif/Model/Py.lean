import Mathlib.Algebra.Order.Field.Basic
import Mathlib.Algebra.Order.AbsoluteValue.Basic

/-!
Python-level vocabulary shared by all models: exceptions as values, list indexing with
`IndexError`, and `torch.isclose`.
-/

namespace Torchdyn

/-- Python exceptions that the modelled code can raise (`raise` statements and the built-in
exceptions of indexing, unpacking, dictionary look-up, missing names and attributes). -/
inductive PyErr
  | keyError | indexError | typeError | valueError | assertionError | attributeError
  | notImplementedError | runtimeError | nameError | unboundLocalError
  deriving DecidableEq, Repr

/-- `l[i]` for a natural index: `IndexError` when out of range. -/
def getItem {α : Type} {m : Type → Type} [Monad m] [MonadExcept PyErr m] (l : List α) (i : Nat) :
    m α :=
  match l[i]? with
  | some a => pure a
  | none => throw PyErr.indexError

/-- `torch.isclose(input, other)` with the default tolerances `rtol=1e-5`, `atol=1e-8`
(called at /repo/torchdyn/numerics/odeint.py:417,423,431 and sdeint.py:94,101).
Exact arithmetic instead of floats. -/
def torchIsclose {K : Type} [Field K] [LinearOrder K] (input other : K) : Bool :=
  decide (|input - other| ≤ 1 / 10 ^ 8 + 1 / 10 ^ 5 * |other|)

/-- `torch.isclose(t, save_at).sum()`: the number of entries of `save_at` that `t` is close to. -/
def closeCount {K : Type} (isclose : K → K → Bool) (t : K) (saveAt : List K) : Nat :=
  (saveAt.filter (fun s => isclose t s)).length

end Torchdyn
