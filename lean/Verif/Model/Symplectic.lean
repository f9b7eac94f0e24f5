import Verif.Model.Api

/-!
`odeint_symplectic`, /repo/torchdyn/numerics/odeint.py:95-150. The attribute `f.order` is `order`, `none` when missing. Only
one-dimensional tensors are modelled as `t_span`.
-/

namespace Torchdyn

/-- odeint.py:126-130: the tests on `f.order`. -/
def symplecticOrder {m : Type → Type} [Monad m] [MonadExcept PyErr m] (isAlf : Bool) (order : Option Nat) : m Nat := do
  match order with
  | none => throw PyErr.runtimeError
  | some o => if isAlf ∧ o = 2 then throw PyErr.runtimeError else pure o

/-- The error ratio of a pair of halves: the tensor is their concatenation along the last dimension. -/
noncomputable def pairErrorRatio {ι : Type} [Fintype ι] (atol rtol : ℝ) (x xNew xErr : (ι → ℝ) × (ι → ℝ)) : ℝ :=
  errorRatio (Finset.univ : Finset (ι ⊕ ι)) atol rtol (Sum.elim x.1 x.2) (Sum.elim xNew.1 xNew.2) (Sum.elim xErr.1 xErr.2)

open Classical in
/-- odeint.py:95-150 with `AsynchronousLeapfrog(stepping_class)`, order 2; the field acts on the first half of the state. In
the adaptive branch (lines 141-150) `k1` and the initial step come from the original field on the first half for `order = 1`;
for other orders the field is applied to the whole state, which a field on half states cannot take: the shapes differ
(`RuntimeError`; not refined further). `return_all_eval` is passed in the place of `args` (line 150), so that the adaptive
loop runs without it and without interpolator. The initial `k1` has the shape of half a state and is passed to the stepper,
which ignores it. -/
noncomputable def odeintSymplecticAlf {ι : Type} [Fintype ι] {m : Type → Type} [Monad m] [MonadExcept PyErr m] (fuel : Nat)
    (f : ℝ → (ι → ℝ) → m (ι → ℝ)) (order : Option Nat) (x : (ι → ℝ) × (ι → ℝ)) (tSpan : List ℝ) (adaptive : Bool)
    (atol rtol : ℝ) (_returnAllEval : Bool) (saveAt : List ℝ) : m (Option (List ℝ × List ((ι → ℝ) × (ι → ℝ)))) := do
  let (f', ts) ← odeintDirection f tSpan
  let o ← symplecticOrder true order
  if adaptive then
    let t ← getItem ts 0
    if o = 1 then
      let k1 ← f t x.1
      let dt ← initStep f k1 x.1 t 2 atol rtol
      adaptiveOdeint
        { step := fun x t dt _ => alfStep true f' x t dt (some k1) ()
          errRatio := pairErrorRatio atol rtol
          adapt := fun dt er => adaptStep dt er (9 / 10) (1 / 5) 10 2
          interp := none
          returnAllEval := false } fuel (k1, 0) x dt ts
    else throw PyErr.runtimeError
  else
    let r ← fixedOdeint torchIsclose (fun x t dt => alfStep false f' x t dt none ()) x ts saveAt
    pure (some r)

open Classical in
/-- odeint.py:95-150 with any other solver object, for fields of order other than 1 (which act on the whole state). The
initial stage `k1 = f(t, x)` (line 148) uses the original field `f`, and `t` is the negated time when time is reversed;
`args` of the steps is `return_all_eval` (line 150), which the built-in solvers ignore. -/
noncomputable def odeintSymplectic {ι : Type} [Fintype ι] {m : Type → Type} [Monad m] [MonadExcept PyErr m] (fuel : Nat)
    (f : ℝ → (ι → ℝ) → m (ι → ℝ)) (order : Option Nat) (x : ι → ℝ) (tSpan : List ℝ) (solver : Solver m ℝ (ι → ℝ) Bool)
    (atol rtol : ℝ) (returnAllEval : Bool) (saveAt : List ℝ) : m (Option (List ℝ × List (ι → ℝ))) := do
  let (f', ts) ← odeintDirection f tSpan
  let _ ← symplecticOrder false order
  if solver.adaptive then
    let t ← getItem ts 0
    let k1 ← f t x
    let dt ← initStep f k1 x t solver.order atol rtol
    adaptiveOdeint (odeintCfg f' solver returnAllEval atol rtol Finset.univ none false) fuel k1 x dt ts
  else
    let r ← fixedOdeint torchIsclose (fun x t dt => solver.step f' x t dt none false) x ts saveAt
    pure (some r)

end Torchdyn
