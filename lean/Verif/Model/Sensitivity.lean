import Verif.Model.Api
import Verif.Model.MultipleShooting

/-!
Adjoint sensitivities, /repo/torchdyn/numerics/sensitivity.py, and the problem classes that call them,
/repo/torchdyn/core/problems.py.
-/

namespace Torchdyn

/-! ### Flattening and slicing -/

/-- One bound of a Python slice on a sequence of length `n`: negative indices count from the end, then both
are clamped to `[0, n]`. -/
def sliceBound (n : Nat) (i : Int) : Nat :=
  if i < 0 then (i + n).toNat else min i.toNat n

/-- Python's `l[a:b]`, with `none` for a missing bound. -/
def pySlice {α : Type} (l : List α) (a b : Option Int) : List α :=
  let start := match a with
    | some i => sliceBound l.length i
    | none => 0
  let stop := match b with
    | some i => sliceBound l.length i
    | none => l.length
  (l.take stop).drop start

/-- sensitivity.py:55: `torch.cat([xT.flatten(), λT_flat, μT.flatten(), λtT[None]])`. Tensors are flat lists. -/
def packAdjoint {α : Type} (x lam mu : List α) (lamT : α) : List α := x ++ lam ++ mu ++ [lamT]

/-- The slices of sensitivity.py:59, 92 and 95: state, adjoint state, parameter adjoint and last entry of `A`, given
the numbers of elements of the first three. -/
def unpackAdjoint {α : Type} (nx nlam nmu : Nat) (A : List α) : List α × List α × List α × List α :=
  (pySlice A none (some nx), pySlice A (some nx) (some (nx + nlam)),
    pySlice A (some (-nmu - 1)) (some (-1)), pySlice A (some (-1)) none)

/-- The interpolated adjoint, sensitivity.py:124, 134, 154, 157: `cat([λT, μT])`, `A[:λT_nel]`, `A[-μT_nel:]`. -/
def packInterp {α : Type} (lam mu : List α) : List α := lam ++ mu

/-- See `packInterp`. -/
def unpackInterp {α : Type} (nlam nmu : Nat) (A : List α) : List α × List α :=
  (pySlice A none (some nlam), pySlice A (some (-nmu)) none)

/-- What `torch.autograd.grad(dx, (x, t) + parameters, -λ, allow_unused=True)` returns at sensitivity.py:64: the
vector-Jacobian products; `none` when an input is not used. -/
structure VjpResult (α : Type) where
  x : Option (List α)
  t : Option α
  params : List (Option (List α))

/-- Which inputs the computation of `vf(t, x)` uses: the state, the time and each parameter in the order of
`vf.parameters()`. -/
structure Usage where
  x : Bool
  t : Bool
  params : List Bool

/-- `torch.autograd.grad(…, allow_unused=True)` at sensitivity.py:64 and 139: `None` for unused inputs, the products `gx`, `gt`,
`gp` for the others; `RuntimeError` when the output depends on none of them (it does not require a gradient). That another
leaf of the graph may require one is left out. -/
def gradUnused {α : Type} (u : Usage) (gx : List α) (gt : α) (gp : List (List α)) : Except PyErr (VjpResult α) :=
  if u.x || u.t || u.params.any id then
    .ok ⟨if u.x then some gx else none, if u.t then some gt else none,
      List.zipWith (fun used v => if used then some v else none) u.params gp⟩
  else .error .runtimeError

/-- sensitivity.py:67-69 and 142-144: `dλ = dλ - dg` if there is an integral loss, whose gradient is `None` when it does not
use the state; subtracting from or with `None` raises `TypeError`. -/
def subtractLoss {α K : Type} [Sub α] (lossGrad : Option (K → List α → Except PyErr (Option (List α)))) (t : K) (x : List α)
    (dlam : Option (List α)) : Except PyErr (Option (List α)) :=
  match lossGrad with
  | none => .ok dlam
  | some dg => do
    match dlam, ← dg t x with
    | some a, some b => pure (some (List.zipWith (· - ·) a b))
    | _, _ => throw .typeError

/-- sensitivity.py:71-72 and 146-147: an unused parameter contributes `torch.zeros(1)`, whatever its size. `torch.cat` of an
empty list raises `RuntimeError`. -/
def catParams {α : Type} [Zero α] (ps : List (Option (List α))) : Except PyErr (List α) :=
  if ps.isEmpty then .error .runtimeError
  else .ok (ps.map (fun p => match p with | some v => v | none => [0])).flatten

/-- sensitivity.py:57-75 `adjoint_dynamics` on flat vectors: `vf` and `vjp` at `(t, x)`, and the gradient of the
integral loss if there is one. An unused time gives zero (line 73); `None.flatten()` raises `AttributeError` (line 75). -/
def adjointDynamicsFlat {α K : Type} [Zero α] [Sub α] (neg : List α → List α)
    (vf : K → List α → List α) (vjp : K → List α → List α → Except PyErr (VjpResult α))
    (lossGrad : Option (K → List α → Except PyErr (Option (List α)))) (nx nlam nmu : Nat) (t : K) (A : List α) :
    Except PyErr (List α) := do
  let (x, lam, _, _) := unpackAdjoint nx nlam nmu A
  let dx := vf t x
  let g ← vjp t x (neg lam)
  let dlam ← subtractLoss lossGrad t x g.x
  let dmu ← catParams g.params
  let dt := match g.t with
    | some d => d
    | none => 0
  match dlam with
  | some dlam => pure (dx ++ dlam ++ dmu ++ [dt])
  | none => throw .attributeError

/-- sensitivity.py:130-148 `adjoint_dynamics` of the interpolated adjoint on flat vectors; the state `x` is read off the spline. -/
def interpDynamicsFlat {α K : Type} [Zero α] [Sub α] (neg : List α → List α) (curve : K → List α)
    (vjp : K → List α → List α → Except PyErr (VjpResult α))
    (lossGrad : Option (K → List α → Except PyErr (Option (List α)))) (nlam nmu : Nat) (t : K) (A : List α) :
    Except PyErr (List α) := do
  let x := curve t
  let (lam, _) := unpackInterp nlam nmu A
  let g ← vjp t x (neg lam)
  let dlam ← subtractLoss lossGrad t x g.x
  let dmu ← catParams g.params
  match dlam with
  | some dlam => pure (dlam ++ dmu)
  | none => throw .attributeError

/-- `a + b` on vectors in torch: equal lengths, or one of them of length one, which is broadcast; `RuntimeError` otherwise. -/
def torchAdd {α : Type} [Add α] (a b : List α) : Except PyErr (List α) :=
  match a, b with
  | [u], b => .ok (b.map (u + ·))
  | a, [v] => .ok (a.map (· + v))
  | a, b => if a.length = b.length then .ok (List.zipWith (· + ·) a b) else .error .runtimeError

/-- The first use a solver makes of the adjoint dynamics: `A + dt * k1` (ode.py:70 for euler; all the others form such a
combination of the state and the first derivative too). -/
def adjFirstStage {α : Type} [Add α] [Mul α] (dyn : List α → Except PyErr (List α)) (dt : α) (A : List α) : Except PyErr (List α) := do
  let k ← dyn A
  torchAdd A (k.map (dt * ·))

/-! ### The backward pass -/

/-- The adjoint state after unpacking: `(x, λ, μ, λ_t)`. -/
abbrev AdjState (X L M K : Type) := X × L × M × K

section backward

variable {m : Type → Type} [Monad m] [MonadExcept PyErr m] {K X L M : Type} [Field K]
  [AddCommGroup X] [AddCommGroup L] [AddCommGroup M]

/-- What the backward pass knows about the field: its value and its vector-Jacobian products with respect to the
state, the parameters and the time (`torch.autograd.grad` at sensitivity.py:64, on the cotangent passed as last
argument), the pairing of cotangents and states (`@` on flattened tensors), and the gradient of the integral loss. The products are
values, as for a field that uses the state and all its parameters; for the others see `adjointDynamicsFlat` and C129. -/
structure AdjointField (K X L M : Type) where
  vf : K → X → X
  vjpX : K → X → L → L
  vjpP : K → X → L → M
  vjpT : K → X → L → K
  pair : L → X → K
  lossGrad : Option (K → X → L)

/-- sensitivity.py:57-75 `adjoint_dynamics` on the unpacked state; see `adjointDynamicsFlat` for the flat one. -/
def adjointDynamics (F : AdjointField K X L M) (t : K) (A : AdjState X L M K) : AdjState X L M K :=
  let x := A.1
  let lam := A.2.1
  let dlam := F.vjpX t x (-lam)
  let dlam := match F.lossGrad with
    | some dg => dlam - dg t x
    | none => dlam
  (F.vf t x, dlam, F.vjpP t x (-lam), F.vjpT t x (-lam))

/-- sensitivity.py:81-93, the loop `for i in range(len(t_sol) - 1, 0, -1)`; `i + 1` is the Python index. `solve` is
`odeint(·, ·, ·, solver_adjoint, …)`. The second component carries `dLdt[i-1]`. -/
def adjointLoop (solve : (K → AdjState X L M K → m (AdjState X L M K)) → AdjState X L M K → List K →
      m (List K × List (AdjState X L M K)))
    (F : AdjointField K X L M) (tSol : List K) (gradT : List K) (gradX : List L) :
    (i : Nat) → AdjState X L M K → K → m (AdjState X L M K × K)
  | 0, A, d => pure (A, d)
  | i + 1, A, _ => do
    let tHi ← getItem tSol (i + 1)
    let tLo ← getItem tSol i
    let (_, As) ← solve (fun t A => pure (adjointDynamics F t A)) A [tHi, tLo]
    let A ← getLastItem As
    let d := F.pair A.2.1 (F.vf tHi A.1)
    let gt ← getItem gradT i
    let gx ← getItem gradX i
    adjointLoop solve F tSol gradT gradX i (A.1, A.2.1 + gx, A.2.2.1, A.2.2.2 - gt) d

/-- sensitivity.py:43-98 `backward`: the gradients with respect to parameters, initial state, and the two entries of
`λ_tspan = [dLdt[0], dLdt[-1]]`. `gradT`, `gradX` are the two entries of `grad_output`. -/
def adjointBackward (solve : (K → AdjState X L M K → m (AdjState X L M K)) → AdjState X L M K → List K →
      m (List K × List (AdjState X L M K)))
    (F : AdjointField K X L M) (tSol : List K) (sol : List X) (gradT : List K) (gradX : List L) :
    m (M × L × K × K) := do
  let xT ← getLastItem sol
  let lamT ← getLastItem gradX
  let tT ← getLastItem tSol
  let lamtT := F.pair lamT (F.vf tT xT)
  let (A, d) ← adjointLoop solve F tSol gradT gradX (tSol.length - 1) (xT, lamT, 0, lamtT) lamtT
  pure (A.2.2.1, A.2.1, d, lamtT)

end backward

/-! ### Problem classes -/

section problems

variable {ι : Type} [Fintype ι] {m : Type → Type} [Monad m] [MonadExcept PyErr m] {A : Type}

/-- sensitivity.py:20-27 `generic_odeint` with `problem_type == 'standard'`; `args` are not passed on. A `save_at` that
is a non-empty dictionary (see `odeProblemOdeint`) ends in `torch.tensor(save_at)`, a `RuntimeError`, for fixed-step
solvers; the adaptive ones only look at its length. -/
noncomputable def genericOdeint (fuel : Nat) (f : ℝ → (ι → ℝ) → m (ι → ℝ)) (x : ι → ℝ) (tSpan : List ℝ)
    (solver : Solver m ℝ (ι → ℝ) A) (atol rtol : ℝ) (useInterp returnAllEval : Bool)
    (saveAt : List ℝ ⊕ A) (isEmpty : A → Bool) (empty : A) : m (Option (List ℝ × List (ι → ℝ))) := do
  match saveAt with
  | .inl sa => odeint fuel f x tSpan solver atol rtol useInterp returnAllEval sa empty Finset.univ
  | .inr d =>
    if isEmpty d || solver.adaptive then
      odeint fuel f x tSpan solver atol rtol useInterp returnAllEval [] empty Finset.univ
    else do
      let _ ← odeintDirection f tSpan
      throw PyErr.runtimeError

/-- core/problems.py:140-155 `ODEProblem.odeint`, forward values. Under the adjoint methods the call is
`.apply(vf_params, x, t_span, save_at, args)` against the signature `forward(ctx, vf_params, x, t_span, B, save_at)`
(sensitivity.py:37, 109): `save_at` is received as `B`, which `generic_odeint` ignores, and `args` as `save_at`. The
interpolated adjoint asks for all evaluation points (`return_all_eval=True`, sensitivity.py:110-111). Any other name makes
`_autograd_func` return `None`, and calling it raises `TypeError`. -/
noncomputable def odeProblemOdeint (fuel : Nat) (sensalg : String) (f : ℝ → (ι → ℝ) → m (ι → ℝ)) (x : ι → ℝ)
    (tSpan : List ℝ) (solver : Solver m ℝ (ι → ℝ) A) (atol rtol : ℝ) (useInterp : Bool) (saveAt : List ℝ)
    (args : A) (isEmpty : A → Bool) (empty : A) : m (Option (List ℝ × List (ι → ℝ))) :=
  if sensalg = "autograd" then
    odeint fuel f x tSpan solver atol rtol useInterp false saveAt args Finset.univ
  else if sensalg = "adjoint" then
    genericOdeint fuel f x tSpan solver atol rtol useInterp false (.inr args) isEmpty empty
  else if sensalg = "interpolated_adjoint" then
    genericOdeint fuel f x tSpan solver atol rtol useInterp true (.inr args) isEmpty empty
  else throw PyErr.typeError

end problems

/-- The attributes of a `MultipleShootingProblem` set by its constructor, core/problems.py:162-201: the base class
receives `solver=None`. -/
structure MsProblem where
  sensalg : String
  solver : Option String
  parallelSolver : String
  fineSteps : Nat
  maxiter : Nat

/-- core/problems.py:163-201, the constructor. -/
def MsProblem.make (solver : String) (sensitivity : String := "autograd") (maxiter : Nat := 4)
    (fineSteps : Nat := 4) : MsProblem :=
  ⟨sensitivity, none, solver, fineSteps, maxiter⟩

/-- The arguments with which `odeint_mshooting` is called: solver (`None` or a name), `fine_steps`, `maxiter`. -/
structure MsCall where
  solver : Option String
  fineSteps : Nat
  maxiter : Nat
  deriving DecidableEq

/-- Positional binding of the last two arguments of `_gather_odefunc_adjoint(…, problem_type, maxiter=4,
fine_steps=4)` (sensitivity.py:32-33, 104-105) and the call made by `generic_odeint` (sensitivity.py:26-27). -/
def gatherMsCall (solver : Option String) (maxiter fineSteps : Nat) : MsCall := ⟨solver, fineSteps, maxiter⟩

/-- core/problems.py:203-256: the call of `odeint_mshooting` that `MultipleShootingProblem.odeint` makes for its forward
values; `_gather_…(self.vf, self.vf_params, self.solver, …, "multiple_shooting", self.fine_steps, self.maxiter)`. -/
def MsProblem.call (p : MsProblem) : Except PyErr MsCall :=
  if p.sensalg = "autograd" then .ok ⟨some p.parallelSolver, p.fineSteps, p.maxiter⟩
  else if p.sensalg = "adjoint" ∨ p.sensalg = "interpolated_adjoint" then
    .ok (gatherMsCall p.solver p.fineSteps p.maxiter)
  else .error .typeError

/-- odeint.py:170-179 `odeint_mshooting` as a dispatcher: `None` has no `sync_device_dtype` (`AttributeError`), names
are looked up; `run` stands for the rest of the function for the selected class. -/
def odeintMshooting {m : Type → Type} [Monad m] [MonadExcept PyErr m] {R : Type}
    (run : MSSolverClass → (fineSteps maxiter : Nat) → m R) (c : MsCall) : m R :=
  match c.solver with
  | none => throw PyErr.attributeError
  | some name =>
    match strToMsSolver name with
    | .error e => throw e
    | .ok cls => run cls c.fineSteps c.maxiter

/-- `MultipleShootingProblem.odeint`. -/
def MsProblem.odeint {m : Type → Type} [Monad m] [MonadExcept PyErr m] {R : Type}
    (run : MSSolverClass → (fineSteps maxiter : Nat) → m R) (p : MsProblem) : m R :=
  match p.call with
  | .error e => throw e
  | .ok c => odeintMshooting run c

end Torchdyn
