import Verif.Model.Py

/-!
What `ODEProblem.__init__` (/repo/torchdyn/core/problems.py:18-102) makes of its arguments: the solvers and tolerances of the forward
and of the backward pass, and the parameters for which gradients are computed. Solver objects are of an abstract type `S`;
`byName` is `str_to_solver` (ode.py:333-336).
-/

namespace Torchdyn

/-! ### Solvers and tolerances -/

/-- The arguments of `ODEProblem` that concern the solvers (problems.py:22-31). -/
structure ProblemArgs (S K : Type) where
  solver : String ⊕ S
  atol : K
  rtol : K
  sensitivity : String
  solverAdjoint : Option (String ⊕ S)
  atolAdjoint : K
  rtolAdjoint : K
  seminorm : Bool

/-- The attributes set from them (problems.py:63-74); there is none for `seminorm`. -/
structure ProblemAttrs (S K : Type) where
  solver : S
  atol : K
  rtol : K
  solverAdjoint : S
  atolAdjoint : K
  rtolAdjoint : K
  sensalg : String

/-- problems.py:55-74. A `solver_adjoint` that is not `None` goes to `str_to_solver`, where an object is not a key (`KeyError`). -/
def problemInit {S K : Type} (byName : String → Except PyErr S) (a : ProblemArgs S K) : Except PyErr (ProblemAttrs S K) := do
  let solver ← match a.solver with
    | .inl n => byName n
    | .inr s => pure s
  let solverAdjoint ← match a.solverAdjoint with
    | none => pure solver
    | some (.inl n) => byName n
    | some (.inr _) => throw .keyError
  pure ⟨solver, a.atol, a.rtol, solverAdjoint, a.atolAdjoint, a.rtolAdjoint, a.sensitivity⟩

/-- The settings of a call of `odeint`; `seminorm = some d` is `seminorm=(True, d)`. -/
structure SolveCall (S K : Type) where
  solver : S
  atol : K
  rtol : K
  seminorm : Option ℕ

/-- problems.py:142-155, sensitivity.py:24-25: the call that computes the solution. -/
def ProblemAttrs.forwardCall {S K : Type} (p : ProblemAttrs S K) : SolveCall S K := ⟨p.solver, p.atol, p.rtol, none⟩

/-- The calls made by the backward pass, for a state with `nx` entries and a cotangent with `nlam`: sensitivity.py:82-84 for
`"adjoint"`, sensitivity.py:152 for `"interpolated_adjoint"`; none for `"autograd"`. Any other name raises `TypeError` in the
forward pass already (problems.py:155, calling `None`). -/
def ProblemAttrs.backwardCall {S K : Type} (p : ProblemAttrs S K) (nx nlam : ℕ) : Except PyErr (Option (SolveCall S K)) :=
  if p.sensalg = "autograd" then pure none
  else if p.sensalg = "adjoint" then pure (some ⟨p.solverAdjoint, p.atolAdjoint, p.rtolAdjoint, some (nx + nlam)⟩)
  else if p.sensalg = "interpolated_adjoint" then pure (some ⟨p.solver, p.atol, p.rtol, none⟩)
  else throw .typeError

/-! ### Parameters -/

/-- A tensor passed or registered as a parameter: its identity, its flattened entries, `requires_grad`, and whether it is an
`nn.Parameter`. -/
structure ParamObj (C : Type) where
  id : ℕ
  value : List C
  requiresGrad : Bool
  isParameter : Bool

/-- `named_parameters()` of a module: one entry per registered name, in order. -/
abbrev NamedParams (C : Type) := List (String × ParamObj C)

/-- `module.parameters()`: every tensor once, at its first occurrence. -/
def parametersOf {C : Type} : NamedParams C → List (ParamObj C)
  | [] => []
  | (_, p) :: rest => p :: (parametersOf rest).filter fun q => q.id != p.id

/-- `nn.Module.register_parameter`: a name already registered is rebound, anything but an `nn.Parameter` raises `TypeError`. -/
def registerParameter {C : Type} (named : NamedParams C) (name : String) (p : ParamObj C) : Except PyErr (NamedParams C) :=
  if !p.isParameter then throw .typeError
  else if named.any (fun e => e.1 == name) then pure (named.map fun e => if e.1 == name then (name, p) else e)
  else pure (named ++ [(name, p)])

/-- problems.py:91: `f"optimizable_parameter_{k}"`. -/
def optName (k : ℕ) : String := "optimizable_parameter_" ++ Nat.repr k

/-- problems.py:90-91: `for k, p in enumerate(optimizable_params): self.vf.register_parameter(f"optimizable_parameter_{k}", p)`. -/
def registerAll {C : Type} (named : NamedParams C) (k : ℕ) : List (ParamObj C) → Except PyErr (NamedParams C)
  | [] => pure named
  | p :: ps => do
    let named ← registerParameter named (optName k) p
    registerAll named (k + 1) ps

/-- problems.py:80-102: the parameters of the vector field after the constructor, registered in place on the (wrapped) field.
`fresh` is `nn.Parameter(torch.zeros(1))`. -/
def problemParams {C : Type} (fresh : ParamObj C) (named : NamedParams C) (optimizable : List (ParamObj C)) :
    Except PyErr (NamedParams C) :=
  if 0 < (parametersOf named).length then pure named
  else if 0 < optimizable.length then registerAll named 0 optimizable
  else registerParameter named "dummy_parameter" fresh

/-- `torch.cat([p.contiguous().flatten() for p in vf.parameters()])` (problems.py:106-108, sensitivity.py:46). -/
def flatParams {C : Type} (named : NamedParams C) : List C := ((parametersOf named).map (·.value)).flatten

/-- sensitivity.py:64-65, 71-72: `torch.autograd.grad(dx, (x, t) + tuple(vf.parameters()), -λ, allow_unused=True)`, the part of the
parameters, flattened. `vjp p` is the vector-Jacobian product for the parameter `p`, `none` when `dx` does not depend on it. An input
that does not require a gradient raises `RuntimeError`, whether it is used or not. -/
def paramGrad {C : Type} [Zero C] (vjp : ParamObj C → Option (List C)) (named : NamedParams C) : Except PyErr (List C) :=
  if (parametersOf named).any (fun p => !p.requiresGrad) then throw .runtimeError
  else pure ((parametersOf named).map fun p => (vjp p).getD [0]).flatten

/-- The backward pass of `torch.cat`: a gradient of the flat vector is cut into one piece per parameter. A vector of another
length than the parameters together raises `RuntimeError` (the check of the shapes of `Function.backward`). -/
def splitGrad {C : Type} : List (ParamObj C) → List C → Except PyErr (List (ParamObj C × List C))
  | [], [] => pure []
  | [], _ :: _ => throw .runtimeError
  | p :: ps, g =>
    if g.length < p.value.length then throw .runtimeError
    else do
      let rest ← splitGrad ps (g.drop p.value.length)
      pure ((p, g.take p.value.length) :: rest)

end Torchdyn
