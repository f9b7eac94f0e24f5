import Mathlib.Algebra.Order.Field.Basic

/-!
Specification vocabulary for stochastic integration.
-/

namespace Spec

/-- The consecutive intervals of a grid. -/
def intervals {K : Type} : List K → List (K × K)
  | t :: t' :: rest => (t, t') :: intervals (t' :: rest)
  | _ => []

/-- The combinations of solver name and type labels of the SDE that `sdeint` is documented to accept or
(the Milstein schemes) accepts without looking. -/
inductive Accepts : String → Option String → Option String → Prop
  | euler (n : String) (h : n ∈ ["general", "diagonal", "scalar", "additive"]) :
      Accepts "euler" (some n) (some "ito")
  | heun (n : String) (h : n ∈ ["general", "diagonal", "scalar", "additive"]) :
      Accepts "eulerHeun" (some n) (some "stratonovich")
  | milsteinIto (noise sde : Option String) : Accepts "milstein_ito" noise sde
  | milsteinStratonovich (noise sde : Option String) : Accepts "milstein_stratonovich" noise sde

/-- `s` is the square root on positive numbers. -/
def IsSqrt {K : Type} [Field K] [LinearOrder K] (s : K → K) : Prop :=
  ∀ a, 0 < a → 0 < s a ∧ s a * s a = a

end Spec
