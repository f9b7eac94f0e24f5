import Verif.Model.Api

/-!
Parallel-in-time solvers: /repo/torchdyn/numerics/solvers/ode.py:211-281 (`MSForward`, `MSZero`,
`MSBackward`), /repo/torchdyn/numerics/odeint.py:153-179 `odeint_mshooting` and 471-506
`_jagged_fixed_odeint`.

A tensor `B` of shooting parameters is the list of its rows `B[0], B[1], ...`, each a state in `V`; a
slice of `k` rows is integrated as one tensor, an element of `Fin k → V`. The vector field is called on
single states and on stacks of rows, so it is given as `f` and `fs k`. `.to(x)` and
`sync_device_dtype` are not modelled.
-/

namespace Torchdyn

/-- `torch.linspace(0, dt, n)`, in exact arithmetic. -/
def linspace0 {K : Type} [Field K] (dt : K) (n : Nat) : List K :=
  (List.range n).map (fun i : Nat => (i : K) * (dt / ((n : K) - 1)))

/-- `l[i] = v` on a tensor with `l.length` rows: `IndexError` when out of range. -/
def setItem {α : Type} {m : Type → Type} [Monad m] [MonadExcept PyErr m] (l : List α) (i : Nat)
    (v : α) : m (List α) :=
  if i < l.length then pure (l.set i v) else throw PyErr.indexError

/-- `l[-1]`: `IndexError` when empty. -/
def getLastItem {α : Type} {m : Type → Type} [Monad m] [MonadExcept PyErr m] (l : List α) : m α :=
  match l.getLast? with
  | some a => pure a
  | none => throw PyErr.indexError

/-- A solver class: it can be applied to states of any shape. -/
def SolverFamily (m : Type → Type) (K A : Type) [Field K] : Type 1 :=
  ∀ (W : Type) [AddCommGroup W] [Module K W], Solver m K W A

section

variable {m : Type → Type} [Monad m] [MonadExcept PyErr m] {K V A : Type} [Field K] [LinearOrder K]
  [AddCommGroup V] [Module K V]

/-- `odeint_func(f, x, sub_t_span, solver=solver)[1][-1]` with `odeint_func = _fixed_odeint`
(odeint.py:177): the final state of a fixed-step integration. -/
def endState {W : Type} [AddCommGroup W] [Module K W] (S : SolverFamily m K A) (args : A)
    (f : K → W → m W) (x : W) (sub : List K) : m W := do
  let (_, sol) ← fixedOdeint torchIsclose (fun x t dt => (S W).step f x t dt none args) x sub []
  getLastItem sol

/-- `odeint_func(f, B[i:], sub_t_span, solver=solver)[1][-1]`, the rows of `B[i:]` in parallel. -/
def endStates (S : SolverFamily m K A) (args : A) (fs : (k : Nat) → K → (Fin k → V) → m (Fin k → V))
    (rows : List V) (sub : List K) : m (List V) := do
  let r ← endState S args (fs rows.length) (fun r => rows.get r) sub
  pure (List.ofFn r)

/-- ode.py:244-247: the inner loop `for m in range(i, n_subinterv)` of `MSZero`. -/
def msZeroInner (coarse : V → m V) (bCoarse bFine : List V) (i : Nat) :
    (ms : List Nat) → (bIn : V) → (bOut : List V) → m (List V)
  | [], _, bOut => pure bOut
  | mm :: ms, bIn, bOut => do
    let c ← coarse bIn
    let bc ← getItem bCoarse (mm - i)
    let bf ← getItem bFine (mm - i)
    let bIn := c - bc + bf
    let bOut ← setItem bOut mm bIn
    msZeroInner coarse bCoarse bFine i ms bIn bOut

/-- ode.py:236-248: the outer loop of `MSZero.root_solve`; `n` iterations remain, `i` is the value of
the counter before its increment. -/
def msZeroLoop (coarse : V → m V) (coarses fines : List V → m (List V)) (nSub : Nat) :
    (n : Nat) → (i : Nat) → (B : List V) → m (List V)
  | 0, _, B => pure B
  | n + 1, i, B => do
    let i := i + 1
    let bCoarse ← coarses (B.drop (i - 1))
    let bFine ← fines (B.drop (i - 1))
    let bOut := B.take i ++ List.replicate (B.length - i) 0
    let bIn ← getItem B (i - 1)
    let bOut ← msZeroInner coarse bCoarse bFine i ((List.range (nSub - i)).map (· + i)) bIn bOut
    msZeroLoop coarse coarses fines nSub n i bOut

/-- ode.py:233-249 `MSZero.root_solve` (the argument `x` is only used for its dtype). The loop
`while i <= maxiter` makes `maxiter + 1` iterations. -/
def msZero (coarseS fineS : SolverFamily m K A) (args : A) (f : K → V → m V)
    (fs : (k : Nat) → K → (Fin k → V) → m (Fin k → V)) (tSpan : List K) (B : List V)
    (fineSteps maxiter : Nat) : m (List V) := do
  let t1 ← getItem tSpan 1
  let t0 ← getItem tSpan 0
  let sub := linspace0 (t1 - t0) fineSteps
  msZeroLoop (fun x => endState coarseS args f x sub) (fun l => endStates coarseS args fs l sub)
    (fun l => endStates fineS args fs l sub) tSpan.length (maxiter + 1) 0 B

/-- odeint.py:153-179 `odeint_mshooting` with an `MSZero` solver and no `B0` (`none`) or a given one.
Only fixed-step coarse methods are modelled. -/
def odeintMsZero (coarseS fineS : SolverFamily m K A) (args : A) (f : K → V → m V)
    (fs : (k : Nat) → K → (Fin k → V) → m (Fin k → V)) (x : V) (tSpan : List K) (B0 : Option (List V))
    (fineSteps maxiter : Nat) : m (List K × List V) := do
  let B0 ← match B0 with
    | some B0 => pure B0
    | none => do
      let (_, B0) ← odeintFixed f x tSpan (coarseS V) [] args
      pure B0
  let B ← msZero coarseS fineS args f fs tSpan B0 fineSteps maxiter
  pure (tSpan, B)

/-- ode.py:273-278: the inner loop of `MSBackward`. `bFine` holds the end states of the rows `B[i-1:]`;
`vjp y v` is the vector-Jacobian product of the fine map at `y` with the cotangent `v`. Entry `mm - 1`
of `bFine` is computed from row `i - 1 + (mm - 1)` of `B` only (the field acts row by row), so the
block `[0][mm-1]` of the gradient is that product when the two rows agree and zero otherwise. -/
def msBackwardInner (vjp : V → V → V) (B bFine : List V) (i : Nat) :
    (ms : List Nat) → (bIn : V) → (bOut : List V) → m (List V)
  | [], _, bOut => pure bOut
  | mm :: ms, bIn, bOut => do
    let bf ← getItem bFine (mm - 1)
    let b ← getItem B (mm - 1)
    let jBlk := if i - 1 + (mm - 1) = mm - 1 then vjp b (bIn - b) else 0
    let bIn := bf + jBlk
    let bOut ← setItem bOut mm bIn
    msBackwardInner vjp B bFine i ms bIn bOut

/-- ode.py:267-280: the outer loop of `MSBackward.root_solve`. -/
def msBackwardLoop (vjp : V → V → V) (fines : List V → m (List V)) (nSub : Nat) :
    (n : Nat) → (i : Nat) → (B : List V) → m (List V)
  | 0, _, B => pure B
  | n + 1, i, B => do
    let i := i + 1
    let bFine ← fines (B.drop (i - 1))
    let bOut := B.take i ++ List.replicate (B.length - i) 0
    let bIn ← getItem B (i - 1)
    let bOut ← msBackwardInner vjp B bFine i ((List.range (nSub - i)).map (· + i)) bIn bOut
    msBackwardLoop vjp fines nSub n i bOut

/-- ode.py:262-281 `MSBackward.root_solve`. Automatic differentiation is a parameter: `vjp sub y v` is
the vector-Jacobian product at `y`, cotangent `v`, of the map sending a state to its end state over
`sub` with the fine method. -/
def msBackward (vjp : List K → V → V → V) (fineS : SolverFamily m K A) (args : A)
    (fs : (k : Nat) → K → (Fin k → V) → m (Fin k → V)) (tSpan : List K) (B : List V)
    (fineSteps maxiter : Nat) : m (List V) := do
  let t1 ← getItem tSpan 1
  let t0 ← getItem tSpan 0
  let sub := linspace0 (t1 - t0) fineSteps
  msBackwardLoop (vjp sub) (fun l => endStates fineS args fs l sub) tSpan.length (maxiter + 1) 0 B

end

section jagged

variable {m : Type → Type} [Monad m] [MonadExcept PyErr m] {K V : Type} [Field K] [LinearOrder K]

/-- odeint.py:485, 493: `~((t - T).abs() <= 1e-6).bool()` followed by `.any()`. -/
def anyUnconverged {s : Nat} (t T : Fin s → K) : Bool :=
  (List.finRange s).any (fun n => !decide (|t n - T n| ≤ 1 / 10 ^ 6))

/-- odeint.py:487-503: the loop of `_jagged_fixed_odeint`, at most `fuel` tests of its condition
(`none`: not finished). `step x t dt` is `solver.step(f, x, t, dt[..., None, None])`. The state `x`
becomes the *third* entry of the returned tuple; when that is `None`, the subscript `x[n]` of line 491
raises `TypeError`. -/
def jaggedLoop {s : Nat} (step : (Fin s → V) → (Fin s → K) → (Fin s → K) → m (StepOut (Fin s → V)))
    (tSpan : Fin s → List K) (T : Fin s → K) :
    (fuel : Nat) → (steps : Nat) → (t dt : Fin s → K) → (x : Fin s → V) → (sol : Fin s → List V) →
      m (Option (Fin s → List V))
  | 0, _, _, _, _, _ => pure none
  | fuel + 1, steps, t, dt, x, sol =>
    if anyUnconverged t T then do
      let (_, _, x) ← (← step x t dt).unpack3
      match x with
      | none => throw PyErr.typeError
      | some x =>
        let sol := fun n => sol n ++ [x n]
        let t := fun n => t n + dt n
        let steps := steps + 1
        let dt := fun n =>
          match (tSpan n)[steps]? with
          | some tn => tn - t n
          | none => 0
        jaggedLoop step tSpan T fuel steps t dt x sol
    else pure (some sol)

/-- odeint.py:471-506 `_jagged_fixed_odeint`, for as many rows of `x` as sub-problems.
`t_sub[0]` and `t_sub[-1]` raise `IndexError` on an empty grid, `t_[1]` on a grid of one point, and
`torch.stack` raises `RuntimeError` when there is no sub-problem. -/
def jaggedFixedOdeint {s : Nat}
    (step : (Fin s → V) → (Fin s → K) → (Fin s → K) → m (StepOut (Fin s → V)))
    (fuel : Nat) (x : Fin s → V) (tSpan : Fin s → List K) : m (Option (Fin s → List V)) :=
  if s = 0 then throw PyErr.runtimeError
  else if (List.finRange s).any (fun n => decide ((tSpan n).length < 2)) then throw PyErr.indexError
  else do
    let t := fun n => (tSpan n).getD 0 0
    let T := fun n => (tSpan n).getLastD 0
    let dt := fun n => (tSpan n).getD 1 0 - t n
    let r ← jaggedLoop step tSpan T fuel 0 t dt x (fun n => [x n])
    pure (r.map (fun sol n => (sol n).take (tSpan n).length))

end jagged

end Torchdyn
