# Formal model of torchdyn: design

A Lean 4 model of torchdyn at the pinned commit, with theorems about it. `properties.jsonl` lists the claims,
`MANIFEST.json` maps them to theorems, `seeded/LOG.jsonl` records the wrong programs the theorems were tried against.

## Trusted base

* **Lean 4.33.0's kernel**, and Mathlib as installed.
* **Axioms.** None are added. Every theorem depends on at most `propext`, `Classical.choice` and `Quot.sound`; the list
  per theorem is at the end of this file. No `sorry`, `admit`, `native_decide` or `bv_decide`.
* **The translation** from `/repo` to the definitions in `lean/Verif/Model/`. The code was read, not run. Every
  definition cites the file and lines it models and says where it simplifies. The Butcher tableaux were also compared
  with the text of `_constants.py` literal by literal, by a text parser: all numbers agree exactly.
* **The statements** in `lean/Verif/Props/` and the specification vocabulary in `lean/Verif/Spec/`.

## Conventions of the model

* **Numbers.** Tensors of floats are modelled by exact arithmetic: an arbitrary (ordered) field `K`, or `ℝ`
  where roots, powers or derivatives are needed. The loops use bare notation classes for time, so that they can also be
  instantiated with rounded arithmetic (C15, C103) and with error ratios that are never small (C28). Rounding is otherwise
  out of scope, as are NaN and overflow.
* **State tensors** are elements of an arbitrary `K`-module `V` wherever the code acts elementwise or linearly;
  they are `ι → ℝ`, lists or products where coordinates matter (norms, slices, concatenations).
* **Exceptions** are values: code runs in a monad `m` with `MonadExcept PyErr m`; the plain instance is
  `Except PyErr`. Vector fields are monadic (`K → V → m V`): the pure instance gives values, the
  `StateT Nat (Except PyErr)` instance counts evaluations.
* **`while` loops** are fuel-bounded iterations of a one-iteration function that mirrors the loop body. Theorems
  quantify over all fuels (safety); separate theorems show that some fuel suffices (termination) or that none does.
* **Solvers** are records (order, stepping class, constants, step function). A custom solver is any such record, so that
  theorems about the loops quantify over all solvers.
* **External code** enters as function parameters, constrained only by hypotheses of the theorem: torch autograd (as
  derivatives), LBFGS (as an arbitrary minimiser), random number generators (as arbitrary samples), torchsde's Brownian
  motion (as an arbitrary path), neural networks (as arbitrary functions).
* **Orders of convergence** are statements about grids as fine as one likes, but `_fixed_odeint` raises `AssertionError` when
  `torch.isclose` cannot tell two output times apart, so that it does not accept grids with gaps below `1e-8`. The error bounds are therefore
  stated for the recursion of the solver's step over every increasing grid (`SteppedBy`, `IsTrajectory`, and `backPass` for
  backward passes), and the same theorem says that the values returned by the call are those of this recursion whenever
  the grid is `Separated`. An error bound with `Separated` as a hypothesis would be empty for fine grids; an earlier version
  of C105, C107, C109, C110, C111 and C130 had this defect (see `VAC1` in `seeded/LOG.jsonl`).
* A property that is **false of the code** is kept in full: the negation is proved on a concrete witness
  (`Cxx_..._refuted`) and the part that does hold is proved as `Cxx_..._partial`. Its status is `partial`.

## Layout

* `Verif/Model/*`: the code, function by function.
* `Verif/Spec/*`: independent specification vocabulary (flows, trajectories, grids, order conditions, accepted steps).
* `Verif/Proofs/*`: helper lemmas.
* `Verif/Props/*`: the property theorems, named `Cxx_...`, with concrete `example`s that meet their hypotheses.

## What is modelled

| file | modelled | not modelled |
|---|---|---|
| `numerics/odeint.py` | `odeint`, `odeint_symplectic`, `odeint_mshooting` (zero, backward, forward, ieuler), `odeint_hybrid`, `_adaptive_odeint`, `_fixed_odeint` (tensors and dicts), `_shifted_fixed_odeint`, `_jagged_fixed_odeint` | `t_span` as a tuple or of more than two dimensions; progress printing of `odeint_hybrid` |
| `numerics/solvers/_constants.py` | all four constructors | the unused `dmid` |
| `numerics/solvers/ode.py`, `templates.py` | all steppers, multiple shooting solvers, name tables, templates for user-defined solvers, the type of the coefficients (`sync_device_dtype`) | devices |
| `numerics/solvers/hyper.py` | all | |
| `numerics/solvers/root.py` | `Broyden*`, `Newton`, `Chord`, `NaiveSearch`, `LineSearchArmijo`, `TerminationCondition`, `batch_jacobian`, `root_find` | the cutoff `rcond=1e-15` of `pinverse`, `LineSearchGriewank/Wolfe1/Wolfe2` (no code in them) |
| `numerics/solvers/sde.py`, `numerics/sdeint.py` | all steps (on tensors of one shape, and on tensors with shapes and broadcasting), type checks, name table, `check_sde`, `sdeint`, `_fixed_sdeint` | `_adaptive_sdeint` (raises `NotImplementedError`), `Midpoint` (no code in it) |
| `numerics/interpolators.py` | `evaluate`, `FourthOrder`, names | `Linear`, `ThirdHermite` (raise `NotImplementedError`) |
| `numerics/sensitivity.py` | both `_ODEProblemFunc`s: packing, slicing, adjoint dynamics, the backward loops | torch's `autograd.Function` machinery and reverse accumulation (a tensor in a graph is a value with its derivative); the spline of torchcde is a parameter |
| `numerics/utils.py` | `hairer_norm`, `init_step`, `adapt_step`, `EventCallback`, `EventState`, `StochasticEventCallback` (used with one state; as a batch, the type of its events), `RootLogger` (without `permanent_log`), `dense_output` (torchcde is a parameter that checks the number of dimensions of its arguments) | `make_norm` (unused), `WrapFunc` |
| `numerics/systems.py` | all systems, with their signatures | random sampling of parameters |
| `core/defunc.py`, `core/utils.py` | all | |
| `core/neuralde.py` | `NeuralODE`, `NeuralSDE` (autograd path), `MultipleShootingLayer` | `__repr__`, `NeuralSDE._autograd/_adjoint` (torchsde) |
| `core/problems.py` | `ODEProblem`, `MultipleShootingProblem`, `SDEProblem` | |
| `models/cnf.py`, `models/energy.py` | all | |
| `models/hybrid.py` | `HybridNeuralDE` | `LatentNeuralSDE` (the module cannot be imported) |
| `nn/node_layers.py`, `nn/galerkin.py` | all; in an autograd graph: `calculate_weights` with all expansions, `DataControl` | gradients of adaptive radial basis functions (their layers raise) |
| `datasets/static_datasets.py` | all generators, `ToyDataset.generate` | LSODA and the kernel density sampler of `generate_diffeqml` (parameters) |
| `torchdyn/utils.py` | | plotting |

Also out of scope: device handling, rounding of states (only times, C103, and coefficients, C121, are followed in floating point), memory, performance, PyTorch-Lightning integration, the file system.

## Findings: where the code does not do what its API promises

Each is proved on the model by the theorem named `_refuted` of the property in brackets (or is part of its statement).

**Integration.** `rk4` pairs stage `i` with the node of stage `i-1`, so it loses its order on time-dependent fields
(C05). `ieuler` evaluates the field at the old time (C11). Decreasing grids return negated times (C17), compute the
initial step with the field at negated times (C92) and in `odeint_symplectic` integrate wrong equations (C85).
`save_at` is compared with itself instead of with the grid (C14). The adaptive loop need not terminate when the error
ratio never gets small (C28). The seminorm is ignored by the initial step (C72). `odeint_symplectic`: the adaptive
branch with `alf` always raises, `return_all_eval` is passed as `args` (C69). Dict states need a custom solver (C71).
`str_to_solver` passes `dtype` as the first positional argument, which `alf` takes as `channel_index` (C68).
`_shifted_fixed_odeint` cannot return (C88). The adaptive loop recognises a requested time by `t + dt == t_eval`; in
`float32` the last step can end one unit behind the last time, and then the final state is lost, or with the interpolator an
`IndexError` is raised (C103); the fixed-step clock can miss a time close to zero (C15). On
decreasing grids the field is negated but the hypernet of a hypersolver is not, so that `HyperMidpoint`
adds the residual with the wrong sign (C98). `t_span` may be a list according to its type, but only increasing lists of
one-element tensors work (C115). `alf` grows like `(1+|a|h)^k` on decaying linear fields, whatever the step size (C112).
Tolerances are not error bounds: for every `atol`, `rtol` and grid there is a field, a polynomial in `t`, on which `dopri5` and
`tsit5` report that nothing moves while the solution moves as far as one likes, because a run sees finitely many values of the
field; and there is one smooth field on `[0, 1]` for which this happens for all tolerances at once, since a field that vanishes at
the start gives the initial step `1e-6` and growth by 10 whatever the tolerances (C120); this is inherent in the method, not a slip of the code.
The same initial step makes the result depend on the unit of time, and the scalar `atol` on units that differ between entries (C133).
Through `ODEProblem`, `NeuralODE` and multiple shooting the coefficients are always those of `float32`, also for `float64` states,
and one `float32` call degrades a solver object for good (C121).
`ODEProblem`: `solver_adjoint` given as an object raises `KeyError`, `seminorm` is ignored, `interpolated_adjoint` ignores the adjoint
solver and tolerances (C122); `optimizable_params` are ignored for fields with parameters, and a frozen or (size other than 1) unused
parameter makes the backward pass raise (C123).

**Events.** `odeint_hybrid` bisects at most 100 times, and a test without event resets the bracket to the whole step,
so that an event need not be located (C80); `j_span` is not enforced and a pending checkpoint is forgotten after an
event or a rejected step; the bisection can leave the step (C34–C37). When the next event follows
its jump within `event_tol`, or a callback stays active after its jump, the clock stops and the loop jumps forever, whatever
`j_span` (C142). Callbacks are tested at the end of a trial step before its error test, so a trial step that would be rejected
can trigger a jump far from any event (C143). Stochastic events happen at the right random times up to `event_tol`, always early (C149); the user has to call
`initialize` (`odeint_hybrid` does not). A bouncing ball keeps the energy balance of its bounces up to one `event_tol`, however often it bounces, and
the call returns for spans that end before the bounces accumulate (C152; for events that follow each other within `event_tol` see C142). A `check_event` that returns one boolean per batch element raises `RuntimeError` for every batch size other than one,
although `initialize` draws one threshold per element (C150).

**Round trips.** Integrating back over the reversed grid recovers the states to the order of the method, never exactly; with steps of
length `1 / L` distinct initial states can be merged, below `1 / (2 L)` (euler) integration is a bijection (C153).

**Long times.** On fields that contract at rate `mu`, `euler`, `midpoint` and `rk4` with steps up to `mu / (20 L^2)` keep their order with a
constant that does not grow with the horizon; near bounded solutions so do they and `dopri5` without any Lipschitz constant (C155). On oscillators they do not (C134), and `alf` is unstable even on decaying fields (C112). A GNF with a strongly convex energy
converges exponentially to its minimiser under these four methods (C156).

**Batches.** The error norm of the adaptive loop is a mean over all entries of the batch. Samples that are easy to integrate dilute the error of
the others: for all tolerances, a bounded system in a large enough batch of samples at rest is integrated with steps that do not depend on it
(C151). A sample is only guaranteed the tolerances multiplied by the square root of the batch size.

**Utilities.** `dense_output` swaps the arguments of torchcde and raises for every input (C145).

**Multiple shooting.** Every sub-interval is integrated over the first spacing of `t_span` (C40). `maxiter=0` raises in
`mszero` (C39); the default `maxiter` raises in `msbackward`, which is not a Newton iteration (C41). Jagged integration
rejects the built-in solvers and repeats a point on longer grids (C42). `ParallelImplicitEuler` freezes the field at
time 0 and leaves the first row unconstrained (C88). `MultipleShootingProblem` with an adjoint method raises
`AttributeError` and exchanges `fine_steps` and `maxiter` (C58). Coarse and fine methods given as solver objects are dropped,
and adaptive ones never work (C118).

**Stochastic integration.** `eulerHeun` takes another step than `euler` for time-dependent additive noise, and the
Milstein schemes have the drift in their derivative-free support point, so that they are not the exact expansions (C45); the Milstein solvers never check the calculus (C46);
all SDE solvers declare the noise types general, scalar and additive, but multiply diffusion and noise elementwise, so that `sdeint` raises for all of them (C135);
`milstein_stratonovich` has a bias of order `h^(3/2)` per step in the mean of linear SDEs with drift (C114), hence strong and weak order 1/2 where order 1 is declared; `euler` declares order 1 and has strong order 1/2 (C124).

**Root finding.** The default line search and `Broyden.step` disagree about the sign of the step, so the default
settings do not solve affine equations (C73); the Armijo search uses `-phi(1)` for the slope (C49);
`batch_jacobian` calls the residual on single rows, so that a residual with data per sample makes `root_find` return a tensor of shape
`(bs, bs, dims)` that mixes samples (C127); with a root at the origin and step length below one the termination condition is never
met, since `dz` is not scaled by `alpha` (C128).

**Datasets and layers.** `ToyDataset.generate` returns `None` for unknown names, twice the samples for `spirals` and no
labels for `diffeqml` (C96); three-dimensional Gaussians are misplaced and higher dimensions raise (C66); odd sample
numbers raise for `spheres` (C67). Galerkin layers raise with `bias=False` (C79, C95); half of the coefficients of
`GalConv2d` have no effect with a one-function basis (C95).

**Evaluation times.** `init_step` evaluates the field at `t0 + h0` before the first step, where `h0` can exceed the length of
`t_span`: a field that is only defined on `t_span` raises (C24).

**Templates.** `BaseExplicit` and `BaseImplicit` cannot be instantiated (`super(BaseExplicit, DiffEqSolver)` is a
`TypeError`), and `odeint` returns `None` for a solver whose stepping class is neither `fixed` nor `adaptive` (C119).

**Wrapping.** A callable `(t, x)` without `args`, and a module `forward(t, x)` inside a `NeuralODE`, raise (C50). The
integral loss enters the error norm of adaptive solvers, so an unbounded loss keeps a solvable problem from returning, and it
fails for `order >= 2` (C53).

**Sensitivity.** `save_at` is ignored and `args` is used in its place under `adjoint`; the gradient with respect to
time has the wrong sign; decreasing grids give wrong gradients; the interpolated adjoint uses the forward solver and
tolerances, and with an adaptive solver returns all evaluation points but reads the gradient rows by the indices of `t_span`, so
that losses on any row but the last get wrong gradients (C125); the adjoint solve always uses a seminorm that leaves the parameter
gradient out of the error test, so that the adjoint tolerances do not control it: it can be wrong by any amount for all tolerances (C126), while on grids with small gaps `dopri5` in both passes gives gradients of fifth order whatever the tolerances (C148); with `rk4` the interpolated adjoint computes gradients of first order only, even of autonomous fields, since along the
spline the backward equations depend on time and `rk4` has the wrong stage times (C141); a field or an integral loss that does not use the state,
or an unused parameter of more than one element, makes both adjoints raise (C129); back-propagation through `ieuler` loses all gradients, since every step returns a new parameter (C130); back-propagation through `odeint_hybrid` is cut at every event, since the bisection runs under `no_grad` (C131); back-propagation through `dopri5` and `tsit5` has no error control of gradients: where the field vanishes at the actual parameters, the gradient is wrong by the same amount for all tolerances (C132); a `DataControl` layer reads its control detached from the graph, so that gradients through it are missing (C137); a `solver_adjoint` object raises (C55–C58, C74, C83, C89). `NeuralODE.trajectory` ignores interpolator,
`save_at` and `args` (C89). `NeuralSDE` with the default `bm=None` always raises, as does `trajectory` (C90).

**Shapes.** A field of the wrong shape is caught by `torch.stack` with the initial state only; with a `save_at` that leaves out the initial time,
a broadcast result such as an `(n, n)` matrix for an `(n, 1)` state is returned (C139). `a[0]` of the tableaus is a tensor of shape `(1,)`: `rk4` and `dopri5` raise on zero-dimensional states, `tsit5` on grids of three or more
times (C139, C140). All other models treat states with at least one axis.

**Types.** `sync_device_dtype` converts the tableau to the type of the state and leaves `t_span` as it is. In `_adaptive_odeint` time and
clamped step size have shape `(1,)` and take part in type promotion: with a `float64` grid and a `float32` state, `dopri5` and `tsit5` call the
field with `float64` states as soon as a step is cut at a checkpoint or at the end, and a `float32` network raises. The fixed-step solvers use
zero-dimensional times and are not affected (C140).

**Bundled systems.** Whether a field takes the time is decided by the parameter name `t`. Ten of the twelve systems of `numerics/systems.py` call it
`s`: `odeint` integrates them, `ODEProblem` and `NeuralODE` raise `TypeError` at the first evaluation (C138).

**Models and layers.** `ConservativeLinearSNF` and `CNF(order > 1)` raise (C61, C77). `HNN` accepts an odd number of columns and then
neither conserves its energy nor has divergence zero (C59, C147). `odeint` does not conserve the
energy of an HNN: with euler, midpoint and rk4 on the oscillator it changes strictly on every step (C146).
Galerkin layers: `linspace(0, deg, deg)` gives fractional degrees, `bias=False` raises, adaptive RBFs have mismatched
shapes, non-adaptive RBFs ignore `eps_scales` and `centers`, the direct Chebychev basis omits the last polynomial
(C64, C65, C78, C79); with the Chebychev basis `dilation` and `shift` never receive a gradient, since `torch.tensor` copies the basis out of the
graph (C136). `models/hybrid.py` cannot be imported; `HybridNeuralDE(reverse=True)` raises (C70).

**Datasets.** Concentric spheres need even `n_samples`; `generate_gaussians` in three dimensions misses a radius factor
and raises in other dimensions than 2 and 3 (C66, C67); `ToyDataset.generate` returns `None` for unknown names.

## Claims

| id | property | status | note |
|---|---|---|---|
| C01 | dopri5 is 5th order on every linear system | proved | Every field, module and step size; exact polynomial, error polynomial included. |
| C02 | The derivative returned by dopri5/tsit5 is the derivative at the new point | proved | Both solvers; k7 = f(t+dt, x_new) for every field. |
| C03 | dopri5 integrates polynomial-in-time fields exactly | proved | Exact quadrature and zero error estimate; order conditions for all rooted trees up to order 5 (4 for the embedded weights) by exhaustive generation proved complete. |
| C04 | tsit5 coefficients are 5th order up to 1e-80 | proved | All rooted trees up to order 5 (4 embedded) and row sums within 1e-80 for the digit-exact coefficients. |
| C05 | rk4 is 4th order | partial | True for autonomous fields and linear systems; refuted for time-dependent fields because the code pairs stage i with c[i-1] (wrong node), witness in C05_rk4_time_dependent_refuted. |
| C06 | euler is 1st and midpoint 2nd order | proved |  |
| C07 | Supplying the first stage never changes a step | proved | All explicit built-in solvers. |
| C08 | Solver steps commute with linear changes of coordinates | proved | Also time shift and time reversal covariance. |
| C09 | Asynchronous leapfrog is time reversible | proved |  |
| C10 | Hypersolvers add exactly dt^(p+1) times the hypernet | proved |  |
| C11 | Implicit Euler solves the backward Euler equation | partial | The residual is evaluated at the old time t, so the claim holds with f(t, .) (hence for autonomous fields) and is refuted for time-dependent fields. |
| C12 | Fixed-step odeint returns the solver trajectory on t_span | proved | Any fixed-step solver of the modelled interface, any grid accepted by the code; exact arithmetic for the accumulated clock (C15 covers rounding). |
| C13 | save_at selects states without changing them | proved | Save times on the grid; a companion refutation shows that an unsorted save_at is returned in grid order. |
| C14 | save_at points outside t_span are rejected | partial | Refuted as stated: a save time off the grid is silently dropped (C14_outside_refuted); proved: what is returned in that case, and that close save times are rejected. |
| C15 | Rounding does not make the fixed-step clock drift | partial | The bound on the clock is proved for every grid in the standard model of rounding (met by rounding to nearest, binary_rounded), recognition of every grid point for nonnegative grids. False for grids that approach zero from a large negative time (C15_crossing_refuted, float32): the last state is lost. |
| C16 | Integration can be split and resumed | proved |  |
| C17 | Integrating backwards in time equals the mirrored forward problem | partial | States agree with the time-reversed problem; refuted for returned times of save_at (not negated). |
| C18 | Number of function evaluations of fixed-step solvers | proved | Exact number of field calls, also for asynchronous leapfrog. |
| C19 | Batch samples are solved independently by fixed-step solvers | proved | Equivariance under any map commuting with the step, batch samples and permutations. |
| C20 | Euler converges | proved | Global error bound for Euler for every Lipschitz field with bounded second derivative of the solution. |
| C21 | Adaptive odeint returns exactly the requested times | proved | Forward and backward grids, with and without interpolator and return_all_eval; exact arithmetic. |
| C22 | Adaptive odeint outputs are reached only through accepted steps | proved | Every pair of consecutive returned points is joined by a chain of accepted steps, forward and backward, without interpolator. |
| C23 | return_all_eval returns every accepted step | proved | return_all_eval without interpolator: consecutive outputs are single accepted steps. |
| C24 | The adaptive solver always moves forward and never past a requested time | partial | Step sizes, times and every attempted step stay inside the span for dopri5 and tsit5 in both directions. The evaluations of the whole call stay inside the span when the trial point of init_step does (C24_evaluations_partial); in general it does not: for x' = 1, x(0) = 1000 on [0, 1] the field is evaluated at time 10 (C24_trial_point_refuted). |
| C25 | Step size controller | proved |  |
| C26 | The initial step is positive | proved |  |
| C27 | Adaptive odeint terminates on bounded vector fields and on fields of linear growth | proved | Any field bounded by a constant (in particular discontinuous ones) and any field of linear growth (norm of f(t,x) at most a + L times the norm of x, in particular globally Lipschitz fields); any positive tolerances; increasing and decreasing grids. |
| C28 | Adaptive odeint always returns or raises | partial | Refuted as stated: there are smooth-on-the-half-line fields for which the loop never returns (no minimum step, no step limit). C27 is the positive part. |
| C29 | Number of function evaluations of adaptive solvers | proved | Counted in a state monad; calls = 2 + 6 * iterations, for runs that return and for runs cut off. |
| C30 | Adaptive dopri5 is exact on polynomial-in-time fields | proved |  |
| C31 | The 4th order interpolant matches the data and reproduces quartics | proved | Values over any field, derivatives over the reals. |
| C32 | Interpolation does not change which times are returned | proved | Two grids with the same ends give the same run; every output is a node of the chain of accepted steps or the dense output of a step. |
| C33 | odeint_hybrid records each jump as a before/after pair | proved | Any solver object of the first-same-as-last interface, any callbacks, any history; also: the only exception is ValueError. |
| C34 | odeint_hybrid performs at most j_span jumps | partial | Refuted: jnum is only incremented by the initial jump, so j_span = 1 allows any number of jumps (C34_two_jumps_refuted); C34_jspan_ignored shows that its value beyond that is ignored; C34_suppressed gives the cases where the loop is not entered at all. |
| C35 | odeint_hybrid visits every t_span point | partial | Refuted (C35_visits_refuted); proved when no event fires and no step is rejected. |
| C36 | odeint_hybrid times are nondecreasing and never pass the final time | partial | Refuted (C36_final_time_refuted: the bisection can leave the step); proved for events that stay on until handled. |
| C37 | odeint_hybrid without events is plain adaptive stepping | partial | Proved with nondecreasing times, plus absence of exceptions; strictness refuted (a checkpoint hit exactly is returned twice). |
| C38 | Parareal equals the sequential fine solution after enough iterations | proved | Any row-wise fixed-step family for coarse and fine, any field, any initial guess; convergence after n iterations and fixed point characterised. |
| C39 | mszero accepts any maxiter | partial | Raises IndexError whenever maxiter >= len(t_span) (C39_maxiter_refuted), so the default maxiter = 4 fails on grids of at most four points; proved for every maxiter < len(t_span). |
| C40 | Multiple shooting respects t_span | partial | Refuted: every sub-interval is integrated over the first spacing of t_span (C40_nonuniform_refuted, C40_grid_ignored); proved on uniform grids. |
| C41 | Discrete-adjoint shooting is a Newton iteration | partial | Refuted: the default maxiter raises, and the iteration is not a fixed point of the sequential solution; one sweep from an exact guess is described. |
| C42 | Jagged parallel integration equals separate integrations | partial | Refuted for the built-in solvers (third tuple entry is None: TypeError) and, for solvers returning the state third, for grids of three points or more (second point repeated). Proved: exact result for all jagged grids, hence correctness on two-point grids. |
| C43 | SDE solvers reduce to Euler without noise | proved | All four usable solvers, every drift, Brownian path and increasing grid; equality with odeint euler on separated grids. |
| C44 | SDE solvers consume each Brownian increment exactly once | proved | Query log in a state monad for every drift and diffusion (eulerHeun asks for each interval twice), telescoping for additive noise on every increasing grid. |
| C45 | Ito and Stratonovich schemes agree for additive noise and differ by the correction otherwise | partial | Refuted for time-dependent additive noise (eulerHeun) and for linear noise with drift (derivative-free support point contains the drift); proved: constant diffusion, exact formulas with the extra terms, and the exact expansions without drift. |
| C46 | sdeint rejects an SDE whose calculus does not match the solver | partial | Refuted for the Milstein solvers, which never check; proved for euler and eulerHeun; error branches for names and missing attributes. |
| C47 | root_find returns certified points or exhausts its iterations | proved | Both Broyden methods, all line searches, any residual and tolerances; reference norms are those after the first iteration; error branches included. |
| C48 | Broyden updates satisfy the secant equation up to the regulariser | proved | Both updates, every batch, dimension and regulariser; contraction of the mismatch for broyden_fast. |
| C49 | Line searches terminate with the documented guarantee | partial | Naive search fully proved; Armijo search proved with the slope the code uses (-phi(1)) for every interpolation formula; refuted for the true slope. Exact real arithmetic: NaN and infinities not modelled. |
| C50 | Wrapped vector fields accept (t,x) and wrapping is idempotent | partial | Idempotence holds for every field; values are correct for fields without t, for modules with t, and for callables accepting args. False of the code: a plain callable (t, x) without args, and a module forward(t, x) inside a NeuralODE, raise TypeError on every call; lambda x, t gets its values swapped; wrapping with defunc_wrap twice nests. |
| C51 | nfe counts calls | proved | Every call sequence, including calls that raise; also SDEFunc (drift plus diffusion calls). |
| C52 | Higher-order fields integrate the chain x, x', ... | proved | Every order and block width; exceptions passed on. Also shown: args never reach the field at order two and more. |
| C53 | The integral-loss channel never influences the dynamics | partial | Proved for euler, midpoint, rk4 on every grid: dynamics unaffected (also save_at and exceptions), first column is the solver quadrature. False of the code at order >= 2 (AttributeError) and for adaptive solvers: the loss column enters the error norm, and an unbounded loss keeps a solvable problem from returning (C53_adaptive_refuted). The constructor (C53_constructor_*): order one, user fields of either call signature that the wrapper accepts; plain functions with a time parameter are outside these two statements (C50). |
| C54 | Data control is fixed to the initial condition | partial | Exact contents of every control attribute for every module tree and call history; un-augmented when the CNFs precede the control layers in named_modules order (refuted without). |
| C55 | Adjoint state packing is lossless | proved | Packing and slicing of the adjoint state are inverse to each other for all sizes; the flat adjoint dynamics act on the unpacked parts. Beyond the property: an unused parameter with more than one entry makes the derivative narrower than the state (C55_unused_parameter_refuted), and the interpolated adjoint needs at least one parameter. |
| C56 | Adjoint gradients equal back-propagated gradients for linear fields with euler | partial | Exact discrete gradient for every linear field, pairing, increasing grid and cotangents on all points, for euler, and for midpoint and rk4 by C56_linear_gradient. False for decreasing grids (C56_decreasing_refuted): the forward pass returns negated times. |
| C57 | save_at is honoured under every sensitivity method | partial | autograd honours save_at; both adjoint methods ignore it and drop args, or raise RuntimeError when args is not empty. |
| C58 | MultipleShootingProblem passes its settings to the solver | partial | autograd passes the settings; both adjoint methods raise AttributeError because the solver attribute is None, and exchange fine_steps and maxiter. |
| C59 | HNN conserves its energy | proved | Total and per-sample energy are constant along every exact solution, for every differentiable energy and even width. For odd widths, outside the claim, it is false (C59_odd_refuted). |
| C60 | GNF dissipates its energy | proved | Nonincreasing along every exact solution, with the exact rate. |
| C61 | CNF propagates minus the divergence | proved | For every differentiable network acting sample by sample; column 0 of the input is ignored for every network. Beyond the property: order > 1 always raises AttributeError. |
| C62 | Hutchinson estimator is unbiased | proved | For every noise distribution with identity second moments (measure-theoretic and finite versions). |
| C63 | Augmenter, DepthCat and DataControl only add columns | proved | For every number of slices; the error branches are covered. |
| C64 | Galerkin layers evaluate the basis expansion | proved | Weights, forward pass and zero initialisation for every expansion that yields one entry per degree; C64_fourier and C79_fixed_rbf_partial show which do. |
| C65 | The Chebychev basis consists of Chebyshev polynomials | partial | In a Galerkin layer of every degree, entry k is T_k. Called directly with degrees 0..N the module omits T_N (C65_direct_refuted). |
| C66 | Toy datasets have the documented sizes, labels and geometry | partial | Moons and spirals: sizes, labels and geometry for every n and noise. Gaussians hold in the plane; in three dimensions the centres are off the circle and from four dimensions on (and in one) every call raises. |
| C67 | Concentric spheres | partial | randnsphere is proved for every dimension. Concentric spheres work for even n_samples only; odd ones raise RuntimeError (three samples give a repeated point). |
| C68 | Solver names | proved | For all strings, ODE and multiple shooting names. |
| C69 | odeint_symplectic supports adaptive alf | partial | False for adaptive leapfrog: always ValueError. Fixed-step leapfrog and other solvers are characterised. |
| C70 | HybridNeuralDE is causal | partial | Causality, recurrence and last_output are proved; reverse=True always raises UnboundLocalError. |
| C71 | Dictionary states are stacked per key | proved | For every stepper that keeps the set of keys, grid and save_at. |
| C72 | Seminorm ignores the excluded components | partial | Proved for the loop given the initial step size; refuted for the whole call because init_step uses the full norm. |
| C73 | root_find solves affine equations with its default settings | partial | Refuted for the default line search (sign mismatch between LineSearcher.phi and Broyden.step); without line search the exact linear rate is proved for every affine residual. |
| C74 | Adjoint gradients with respect to integration times | partial | The end-time entry is correct; the start-time entry has the wrong sign (C74_start_time_refuted). |
| C75 | The sensitivity does not change the forward values | partial | adjoint equals autograd; interpolated_adjoint equals autograd for fixed-step solvers but returns all evaluation times with adaptive solvers. |
| C76 | LNN satisfies the Euler-Lagrange equations | proved | Euler-Lagrange equation, velocity and energy conservation along every exact solution. |
| C77 | ConservativeLinearSNF conserves its energy | partial | False: forward always raises AttributeError (C77_conservative_snf_refuted). |
| C78 | Galerkin layers use the degrees 0, 1, ..., deg-1 | partial | False for every degree >= 3: linspace(0, deg, deg) has deg equally spaced points from 0 to deg, spacing deg/(deg-1) (C78_spacing_partial). |
| C79 | Every documented option of Galerkin layers works | partial | Non-adaptive expansions with bias work; bias=False and adaptive radial basis functions always raise. |
| C80 | odeint_hybrid locates events up to event_tol | partial | Proved when t_span[-1] - t_span[0] <= 4096 * event_tol (C80_located_partial), where the limit of 100 bisection steps suffices. Refuted in general: the bracket is reset to the full step after every test without event, so 100 steps can end on a quiet state and ValueError is raised (C80_error_refuted). |
| C81 | One step of dopri5 and tsit5 has the advertised order on smooth nonlinear fields | proved | Local error and error estimate of dopri5 for time-dependent C^5 fields; tsit5 for autonomous C^5 fields (up to the rounding of its decimals). Proved through elementary differentials over rooted trees; exact real arithmetic. |
| C82 | Fixed-step integration converges with the order of the solver | partial | euler and midpoint for all fields; rk4 for autonomous fields, refuted (C82_rk4_time_refuted) for time-dependent ones. Exact real arithmetic. |
| C83 | The adjoint backward pass computes the gradient with respect to initial state and parameters | proved | For exact solves of the adjoint equation (hypothesis ExactAlong, shown satisfiable); states and parameters in finite-dimensional spaces. C83_frechet proves differentiability of the solutions and identifies the Fréchet gradient of all losses including the integral loss. Gradients with respect to times are C74. |
| C84 | During every evaluation the time-aware submodules hold the current time | proved | After any DEFunc call, and while the user module body runs, every submodule with attribute t holds the current time; nothing else changes. |
| C85 | odeint_symplectic on a decreasing grid integrates backwards in time | partial | False of the code. The leapfrog run on a decreasing grid does not negate the velocity half, so it does not retrace (refuted on x'=x); with the velocity negated by hand it retraces exactly, for all fields and grids (C85_leapfrog_retrace_partial). The other adaptive solvers get the first stage f(-t0,x) instead of -f(t0,x): dopri5 ends at a wrong state on every non-zero constant field (C85_adaptive_refuted). |
| C86 | Adaptive integrations converge with fifth order in the largest accepted step | proved | dopri5 forward, backward and total (with termination) for every field with five continuous derivatives, no Lipschitz or growth condition (also on solutions that blow up after the interval); tsit5 for autonomous Lipschitz fields up to 1e-80. h must be below a threshold depending on field and interval. Exact real arithmetic. |
| C87 | Dense output of dopri5 is accurate to fourth order | proved | One step (C87_step) and whole runs (C87_run), for smooth fields without Lipschitz condition. The bound is in terms of the accepted step sizes. Exact real arithmetic. |
| C88 | Parallel implicit Euler solves the implicit Euler equations | partial | residual characterised, unique solvability, accuracy for inexact minimisation; false for time-dependent fields (C88_time_refuted): they are frozen at time 0. The optimiser (LBFGS) is a parameter. _shifted_fixed_odeint never returns (C88_shifted) |
| C89 | NeuralODE.forward and trajectory integrate the user's field | partial | forward equals odeint on the user field; trajectory equals forward under autograd without interpolator; false under interpolated_adjoint (C89_trajectory_refuted) and for solver_adjoint objects (C89_solver_adjoint_refuted) |
| C90 | NeuralSDE integrates the user's SDE | partial | forward equals sdeint when a Brownian motion is given; the default bm=None always raises (C90_default_refuted), trajectory always raises (C90_trajectory_refuted) |
| C91 | Adaptive integration commutes with reordering and repeating samples | proved | General form C91_batch (every entry copied equally often), permutations and repetition. Full norm (seminorm off); exact real arithmetic. |
| C92 | Integration does not depend on the origin of time | partial | Proved on increasing grids for dopri5/tsit5, on both directions for euler/midpoint/rk4, and on decreasing grids for autonomous fields; false on decreasing grids for time-dependent fields under adaptive solvers (C92_backward_refuted): the initial step evaluates the field at negated times. |
| C93 | Linear invariants are conserved exactly | proved | dopri5, tsit5 (all settings) and euler, midpoint, rk4. Exact real arithmetic. |
| C94 | The bundled systems: symmetry, boundedness, termination | proved | C94_reflection is the general statement (any field that commutes with sign changes); Lorenz, VanDerPol and ODEProblem4 are modelled for samples of the width they are made for; termination of Lorenz, VanDerPol and ODEProblem4 (superlinear growth) is not claimed. |
| C95 | GalConv2d is a depth-dependent convolution | proved | conv2d is modelled entrywise with zero padding and stride; other options of conv2d are not used by the code. |
| C96 | ToyDataset.generate returns n_samples labelled samples for every known name | partial | spirals returns 2n points, the Gaussian sets n per component, diffeqml has no labels, unknown names give None (C96_samples_refuted, C96_unknown_refuted). LSODA and the kernel density estimate are parameters. |
| C97 | The CNF column is the change of log-density of the flow | proved | Liouville formula for exact solutions of the CNF equation (flow Jacobian exists and its determinant is exp of minus the change of column 0), change of variables for every measurable set, and normalisation for Lipschitz networks. About the differential equation the module defines; the numerical solution of it is the subject of the order theorems. |
| C98 | Hypersolver accuracy is governed by the hypernet error | partial | Proved on increasing grids for all three hypersolvers (error bound) and second order of HyperEuler with the leading residual, for Lipschitz fields and, in C98_accuracy_local and C98_hyperEuler_second_order_local, for smooth ones without Lipschitz constants. False on decreasing grids (C98_backward_refuted): odeint negates the field and the times but not the hypernet, so HyperMidpoint doubles the error that it removes on increasing grids. |
| C99 | ieuler is unconditionally contractive and accurate on stiff problems | proved | LBFGS is an arbitrary optimiser with the stated convergence; the field is evaluated at the old time as in the code (C11), which enters the accuracy bound through M1. |
| C100 | sdeint with additive noise converges along every path | proved | Pathwise convergence for every continuous path and rate h^a for Hölder paths, for euler, eulerHeun, milstein_ito and milstein_stratonovich. Constant diffusion of the shape of the state; exact real arithmetic. |
| C101 | root_find converges locally on nonlinear residuals | proved | Both Broyden methods without line search; the updates are shown to be bounded-deterioration updates of the (inverse) Jacobian, including the regularised denominators. The default line search stalls (C73). The pseudo-inverse of the Jacobian is a parameter assumed to be an inverse; it is one near the root (exists_inverse_near). |
| C102 | euler on a GNF is gradient descent | proved | Descent for every Lipschitz gradient and O(1/t) rate for convex energies, on whole odeint calls. |
| C103 | Adaptive odeint returns a state for every requested time in floating point | partial | False in float32 (C103_lost_refuted): the step to the end of the interval can overshoot by one unit in the last place, then the final state is lost whatever the field and solver, and with the interpolator IndexError is raised. Proved: if no landing overshoots (any arithmetic), for grids of positive times with ratio at most two (any number of bits), and for intervals from a nonnegative time to a power of two. Rounding without overflow or subnormal numbers. |
| C104 | Fixed-step integration depends stably on the initial state, the field and the arithmetic | proved | One theorem over three perturbations at once (initial state, field, arithmetic of the steps), for euler, midpoint and rk4 on every non-decreasing separated grid; the constants are those of the exact flow. Non-vacuity: a fixed-point Euler solver on a quantised sine field. |
| C105 | Log-likelihoods computed by a CNF converge with the order of the solver | proved | Exact trace, networks acting per sample, no Lipschitz condition (the flow has to exist on the interval); exact real arithmetic. The bound is stated for the solver's steps on every grid however fine; that these are what the call returns is stated for the grids odeint accepts (no two times close in the sense of torch.isclose). |
| C106 | Fixed-step integration converges with its order for smooth fields that are not globally Lipschitz | partial | euler and midpoint for all fields; rk4 for autonomous fields, refuted (C106_rk4_time_refuted) for time-dependent ones. Exact real arithmetic. |
| C107 | Gradients computed with the numerical adjoint converge to the true gradient with the order of the solvers | partial | euler and midpoint for all fields, rk4 for autonomous ones (C107_rk4_time_refuted: on x' = θ t its gradients are not even of second order). Loss on the last state plus an integral loss; exact real arithmetic; vector-Jacobian products as torch.autograd.grad is documented to return them. The bound is stated for the solver's steps on every grid however fine; that these are what the call returns is stated for the grids odeint accepts (no two times close in the sense of torch.isclose). |
| C108 | One step size serves all trajectories in a bounded region | partial | Proved with order 1 for euler and 2 for midpoint (time-dependent fields included) and 4 for rk4 on autonomous fields; for time-dependent fields rk4 is not of fourth order (C108_rk4_time_refuted), so the full statement is false of the code. |
| C109 | Gradients of losses over all outputs computed with the numerical adjoint converge, uniformly in the number of outputs | partial | Proved with order 1 for euler and 2 for midpoint (time-dependent fields and losses included) and 4 for rk4 on autonomous fields and integral losses; for time-dependent fields rk4 is not of fourth order (C109_rk4_time_refuted: not even of second order). The bound is stated for the solver's steps on every grid however fine; that these are what the call returns is stated for the grids odeint accepts (no two times close in the sense of torch.isclose). |
| C110 | rk4 on time-dependent fields: first order always, fourth order with time as a state | proved | C110_rk4: first order, uniformly over nearby initial states, for every C1 time-dependent field. C110_augmented: fourth order when time is a state component. C110_gradients: first-order adjoint gradients. An example shows on x'=t that the first-order rate is attained and the remedy works. The bound is stated for the solver's steps on every grid however fine; that these are what the call returns is stated for the grids odeint accepts (no two times close in the sense of torch.isclose). |
| C111 | Second-order convergence of the asynchronous leapfrog solver | proved | C111_alf, through the run-level description of odeint_symplectic (C69_fixed_partial) and a Gronwall argument for the pair (state, h times velocity). Examples: the rotation field; equidistant grids meet the gap condition. The bound is stated for the solver's steps on every grid however fine; that these are what the call returns is stated for the grids odeint accepts (no two times close in the sense of torch.isclose). |
| C112 | The leapfrog solver is unstable on every decaying linear field, at every step size | proved | C112_linear: closed form of every state of the run. C112_unstable: lower bound of the norm for a < 0. Example: x' = -3x with step 1/4 gives (81/80) 2^-k - (1/80) (-2)^k. |
| C113 | Error of parareal multiple shooting stopped early | proved | C113_parareal: the bound in terms of Lipschitz constants of the coarse map and of the fine-coarse difference. C113_lipschitz, C113_euler_rk4: the constants for Lipschitz fields. The bound is zero at nodes m <= k, which is C38. |
| C114 | Moments of sdeint over the Brownian paths | proved | Mean, second moment and mean-square stability of Euler-Maruyama through sdeint, and the mean of all four schemes on linear SDEs; Brownian paths enter as increments with the moments of a Brownian motion (a Gaussian witness is constructed). |
| C115 | Arguments of odeint: time spans, solver and interpolator names | partial | Names, unknown names, short and two-dimensional time spans proved; that lists work as t_span is refuted (decreasing lists, lists of numbers or scalars). |
| C116 | Strong convergence of sdeint with the Euler-Maruyama solver | proved | sdeint with euler against sdeint on a refinement along the same path; BrownianSteps is what the proof uses of a Brownian motion, brownianSteps_of_brownian derives it from Mathlib's IsPreBrownianReal, and a process meeting it on a grid is constructed in the example |
| C117 | Mean-square convergence of sdeint with the Euler-Maruyama solver | proved | the limit is the L2 limit over dyadic refinements; that it solves the stochastic integral equation is not stated, as there is no stochastic integral to state it with. The hypotheses are met by Lévy's construction (levy_brownianSteps) |
| C118 | Arguments of odeint_mshooting: solver and method names, solver objects | proved | the constructor and the attribute look-ups are modelled; C38-C41 and C113 give what the parareal run returns |
| C119 | A solver can be written on top of the library's templates | partial | Proved for DiffEqSolver and SolverTemplate (fixed: the trajectory of the step; adaptive: the run of a built-in solver with the same data) and for a missing step. False for BaseExplicit and BaseImplicit, which cannot be instantiated, and for an unknown stepping class, for which odeint silently returns None. |
| C120 | Tolerances bound the error of adaptive integration | partial | False as stated: for all tolerances there is a polynomial field in t alone on which both solvers return the initial state while the solution moves arbitrarily far (C120_tolerance_refuted), and there is one smooth field on which this happens for all tolerances at once (C120_all_tolerances_refuted). Proved: the bound for runs with reliable estimates, and reliability for dopri5 on all diagonal decaying linear fields. Exact real arithmetic. |
| C121 | Coefficients have the precision of the state | partial | By name in odeint (and for an object built with the type of the state) every coefficient is the exact one up to two roundings, and repeated use with one type changes nothing (proved). False of the code through ODEProblem/NeuralODE and multiple shooting, which build the tableau in float32 and only widen it (C121_problem_refuted), and after one float32 call with a float64 object (C121_reuse_refuted); the effect on solutions is exact: a factor 1+2^-25 on every rk4 increment, a drift 3/2^27 (dopri5) or 7/2^29 (tsit5) on constant fields whatever the tolerance. |
| C122 | The backward pass uses the adjoint settings | partial | Which calls construct a problem, and that the forward pass uses solver/atol/rtol, is proved. False of the code: solver_adjoint as an object raises KeyError (C122_object_refuted); with sensitivity='adjoint' the settings are the documented ones iff seminorm=True, the flag being ignored (C122_adjoint_partial); with 'interpolated_adjoint' solver_adjoint, atol_adjoint and rtol_adjoint are ignored (C122_interpolated_refuted). |
| C123 | Gradients are computed for the parameters of the field and the optimizable parameters | partial | Proved: a field without parameters gets the optimizable_params in order, a field with parameters keeps its own, every parameter receives its own piece of the gradient when none is frozen or unused. False of the code: optimizable_params are ignored when the field has a parameter, also the dummy one left by an earlier problem; a frozen parameter raises RuntimeError, an unused one of size other than 1 makes the backward pass raise. |
| C124 | Orders of the SDE solvers on the linear test equation | partial | strong order one half for all four names, strong order one for milstein_ito and eulerHeun, weak order one of the mean for all but milstein_stratonovich. The declared order 1 is refuted for euler (strong) and milstein_stratonovich (strong and weak). |
| C125 | Gradients of the interpolated adjoint | partial | Error bound and exact case proved for fixed-step solvers (all rows) and for adaptive solvers with a loss on the last row; losses on other rows with adaptive solvers are refuted on a smooth field. |
| C126 | The adjoint tolerances bound the error of the gradients | partial | False of the code: the always-on seminorm leaves the parameter gradient out of the error test; for one smooth field the computed parameter gradient is wrong by as much as one likes for all adjoint tolerances at once (C126_parameter_gradient_refuted), in a step that a test of all entries refuses (C126_full_norm_rejects). Proved: every step of every returning adjoint solve passes the test on state and cotangent. Exact real arithmetic. |
| C127 | root_find(g, z) converges with its own initial Jacobian and returns a tensor of the shape of z | partial | Proved for residuals that act on rows: affine ones with any matrix, nonlinear ones near a regular root, and the errors. False of the code for residuals that carry data per sample: batch_jacobian calls them on a single row, the result has shape (bs, bs, dims) and its slices differ (C127_per_sample_refuted); for broyden its diagonal is what was asked for (C127_diagonal_partial). |
| C128 | root_find stops by its termination condition | partial | Proved for roots away from the origin, with a number of iterations that depends only on the tolerances. False of the code for roots at the origin: for linear residuals with alpha < 1 and x_rtol <= 1 (the defaults) the condition is never met (C128_origin_refuted). |
| C129 | An input the field does not use has zero derivative in the adjoints | partial | False of the code for fields or integral losses that do not use the state and for unused parameters of other than one element; proved which error each raises and that all other cases give the adjoint equation with zeros. |
| C130 | Back-propagation gives the gradient of the returned states, and of the solution in the limit | partial | False of the code for ieuler, whose steps are new leaves of the graph; proved exact for euler, midpoint, rk4 and the hypersolvers, with convergence to the gradient of the solution for euler, midpoint and (autonomous fields) rk4. The bound is stated for the solver's steps on every grid however fine; that these are what the call returns is stated for the grids odeint accepts (no two times close in the sense of torch.isclose). |
| C131 | Back-propagation through odeint_hybrid | partial | Values in the graph equal the values without, for dopri5 and tsit5. The gradient claim is refuted: at every event seen the state before the jump is the state before the step or has derivative zero (C131_event_refuted), with a concrete run where the gradient is zero and the derivative is not (C131_gradient_refuted). C131_gradient_partial characterises what is recorded: the derivative along the run with the steps and jumps made at the given inputs, the located states being constants; C131_quiet_gradient: without events nothing is cut. Times and step sizes are constants of the graph in the model; FirstStepFixed (and, in the witness, the constant first step) makes this true of the code. |
| C132 | Back-propagation through the adaptive solvers | partial | Values and gradients are proved, for increasing and decreasing times, in a model in which times and step sizes are part of the graph. That tolerances control the error of the gradient is refuted by a run that is the same for all tolerances. Autograd being correct for the field and for init_step is part of the model. |
| C133 | Independence of the units of state and time | partial | Proved: dopri5 and tsit5 commute with a change of the unit of the state (C133_state_units, all grids, settings and errors), euler, midpoint and rk4 with a change of the unit of time (C133_time_units_partial). Refuted: units that differ between entries (C133_entry_units_refuted: one atol for all entries) and the unit of time with dopri5 (C133_time_units_refuted: the initial step is 1e-6 in whatever unit, for all tolerances). |
| C134 | Step-size limits of the fixed-step solvers | proved | C134_mode gives the amplitude of every linear mode after k steps exactly; the decay and oscillation theorems give the exact limits of h for euler, midpoint and rk4; C134_hnn_euler applies it to the HNN of the model. |
| C135 | SDE solvers integrate every noise type they declare | partial | Diagonal noise, i.e. all tensors of the shape of the state: proved for all shapes, solver names, grids and errors (C135_diagonal). For diffusions with an axis for the noise components (general, scalar, additive) the claim is refuted: sdeint raises for all of them (C135_noise_axis_refuted). |
| C136 | Galerkin layers train the parameters they expose | partial | Exact gradients proved for Fourier, Polynomial (positive argument) and the fixed radial basis functions (away from the center), and for the coefficients of Chebychev; refuted for Chebychev at every degree of at least two and every argument: dilation, shift and depth receive no gradient. C136_init: at initialisation only the coefficients receive one. |
| C137 | Gradients of a data-controlled Neural ODE | partial | Refuted: the control is detached. C137_frozen_partial proves what is recorded instead, the derivative with the control held fixed, for euler, midpoint and rk4. |
| C138 | The bundled systems work as vector fields of odeint, ODEProblem and NeuralODE | partial | True of odeint for all twelve systems (C138_odeint) and of ODEProblem and NeuralODE for Lorenz and VanDerPol (C138_ode_problem_partial, C138_neural_ode_partial). False of the ten others: their parameter is called s, standardize_vf_call_signature looks for the name t, and no call of an ODEProblem or NeuralODE around them returns (C138_refuted); the same for every field whose time parameter has another name (C138_renamed_time_refuted). |
| C139 | Shapes of fields and states in odeint | partial | Proved for all shapes without save_at (C139_shape_partial, C139_raises_partial), the expansion for all save_at (C139_expanded_partial; for rk4 the state has an axis); false of rk4 with zero-dimensional states, on which every field of the same shape raises (C139_scalar_refuted), and false with a save_at that leaves out the initial time (C139_save_at_refuted). Fixed-step methods euler, midpoint, rk4. |
| C140 | Types and axes of state and grid in odeint | partial | Proved: dopri5/tsit5 when the grid is not wider than the state and the state has an axis (C140_types_partial), the fixed-step solvers for all grids (C140_fixed), the values for fields that accept every type (C140_values). False with a float64 grid and a float32 state as soon as the first step reaches the second time (C140_float64_refuted), and of zero-dimensional states (C140_scalar_refuted). |
| C141 | Gradients of the interpolated adjoint converge with the order of the solver, up to two | partial | C141_euler (order 1) and C141_midpoint (order 2), time-dependent fields and losses included; C141_rk4_partial: order 1 for rk4; C141_rk4_refuted: no higher order for rk4, even for autonomous fields, since the backward equations along the spline depend on time. The spline of torchcde is assumed to be the natural cubic spline, whose existence is proved. The bound is stated for the solver's steps on every grid however fine; that these are what the call returns is stated for the grids odeint accepts (no two times close in the sense of torch.isclose). |
| C142 | odeint_hybrid finishes on systems whose jumps are separated | partial | Refuted: with a callback that is active everywhere (C142_active_refuted) and for a ramp reset within event_tol of its last reset (C142_close_refuted) the loop never ends, whatever j_span. Proved for bounded fields and persistent events when nothing fires (C142_quiet_partial), when jumps consume a resource (C142_resource_partial), and when the dwell time after each jump exceeds event_tol (C142_dwell_partial). |
| C143 | odeint_hybrid jumps only near an event | partial | Proved for dopri5 (and tsit5 with the constant 7.59), fields bounded by M, persistent events and spans of at most 4096 tolerances: every jump is within event_tol in time and 1.65 M event_tol in each component of a point at which the callback is first active. False in general (C143_spurious_refuted): callbacks are tested at the end of the trial step, before its error test, so on x'=-1e7 x, x0=1e-9 with the default tolerances a guard at x>=1 triggers a jump at t=0 although the solution decays. |
| C144 | The logger of root_find describes the returned point | proved | Model of the logger dictionary threaded through the loop; permanent_log, which nothing calls, is not modelled. |
| C145 | dense_output returns values of an interpolant | partial | False for every input (C145_raises_refuted): dense_output passes the times as the path and the path as the times, so torchcde raises ValueError (RuntimeError from permute when the solution has not three dimensions). torchcde is a parameter; what is assumed of it is that it checks the number of dimensions of its arguments. |
| C146 | Energies along computed trajectories of HNN and GNF | partial | Drift of order p proved for euler, midpoint and rk4 on all energies with p+1 continuous derivatives, as long as the exact solution exists; GNF energies decrease up to C h^p (C146_gnf_descent). Exact conservation is false on every step (C146_exact_refuted): on the harmonic oscillator each euler and midpoint step multiplies the energy by 1+h^2, 1+h^4/4 and each rk4 step by 1-h^6/72+h^8/576. |
| C147 | A CNF over a Hamiltonian network preserves volume | partial | Proved for the default estimator and an even number of columns: zero divergence, first column exactly constant for euler, midpoint, rk4, dopri5, tsit5, data columns as without the CNF (fixed step). False with the Hutchinson estimator (C147_hutch_refuted; only the mean is zero, C147_hutch_mean_partial) and for an odd number of columns (C147_odd_refuted). Autograd is assumed to connect the outputs to the inputs: for energies linear in the inputs torch raises instead of returning zero. |
| C148 | Accuracy of adjoint gradients with dopri5 in both passes | proved | Losses on the last output and weighted losses over all outputs; no integral loss; no Lipschitz condition. The order is in the gaps of the grid: at a fixed grid the tolerances of the adjoint solve do not control the parameter gradient (C126). Exact real arithmetic; autograd gives exact derivatives. |
| C149 | Stochastic events happen at the right random times | proved | One state, one clock entry with constant rate (clocks with state-dependent rate are not covered), bounded field, span at most 4096 event tolerances (the bisection stops after 100 iterations, C80), j_span > 0. For tsit5 the rate is r up to the relative error 1e-84 of its tableau. Exact real arithmetic; the draws of expdist.sample are independent exponential variables. |
| C150 | odeint_hybrid integrates batches | partial | Refuted: RuntimeError for every number of entries other than one (C150_batch_refuted). Holds for tensors with one entry (C150_single_partial). |
| C151 | The tolerances of adaptive odeint hold for each sample of a batch | partial | Refuted: the error norm is a mean over the whole batch, so samples at rest dilute the error of a moving one. For every bounded field and all tolerances, a large enough batch is integrated with the steps 1e-6, 1e-5, …, 0.888889 whatever the field is; a concrete field is integrated to any accuracy alone and with an error as large as one likes in a batch. Proved part: each sample is advanced by steps within the tolerances multiplied by the square root of the batch size. |
| C152 | A bouncing ball keeps to the energy balance of its bounces | proved | Over the reals, for spans of at most 4096 event tolerances (the number of halvings the bisection has). C152_run: what is returned; C152_energy: energy along every such run; C152_returns: the call returns (for spans that end before the bounces accumulate; events that follow each other within event_tol: C142). |
| C153 | Integrating back recovers the states | proved | Round trips over accepted grids to order 1, 2, 4 (rk4 on autonomous fields), 5, uniformly over solutions in a bounded region; bijectivity with two-sided Lipschitz constants for small steps. The two limits in the statement are C153_exact_refuted and C153_large_step_refuted. tsit5 is not covered: its decimals satisfy the order conditions up to rounding only (C04). |
| C154 | One grid serves all trajectories in a bounded region with dopri5 | proved | Increasing and decreasing grids. |
| C155 | Long-time accuracy on contracting fields | proved | contraction and equilibrium: time-dependent fields on any real inner product space, with the step restriction 20 L^2 h <= mu; accuracy: autonomous fields in finite dimension with p continuous derivatives; C155_local and C155_dopri5 need no Lipschitz constant and are uniform over horizons |
| C156 | GNF with strongly convex energy converges to the minimiser | proved | Exponential convergence of states and energies on whole odeint calls, for every strongly convex energy. |

## Axioms per theorem

**no axioms** (6): `Torchdyn.C50_accepted_signatures_partial`, `Torchdyn.C58_adjoint_refuted`, `Torchdyn.C58_swapped_refuted`, `Torchdyn.C63_depth_cat`, `Torchdyn.C63_data_control`, `Torchdyn.C89_solver_adjoint_refuted`.

**`propext`** (20): `Torchdyn.C50_no_time_partial`, `Torchdyn.C50_time_module_partial`, `Torchdyn.C50_time_callable_partial`, `Torchdyn.C50_neural_ode_partial`, `Torchdyn.C50_idempotent`, `Torchdyn.C50_defunc_nested`, `Torchdyn.C50_parameter_order_refuted`, `Torchdyn.C50_sde`, `Torchdyn.C52_plain_function`, `Torchdyn.C53_constructor_partial`, `Torchdyn.C54_last_call`, `Torchdyn.C58_layer_partial`, `Torchdyn.C58_autograd_partial`, `Torchdyn.C63_augmenter_func`, `Torchdyn.C77_conservative_snf_refuted`, `Torchdyn.C89_solvers`, `Torchdyn.C122_object_refuted`, `Torchdyn.C123_own`, `Torchdyn.C129_loss_refuted`, `Torchdyn.C145_raises_refuted`.

**`propext`, `Quot.sound`** (59): `Torchdyn.C07_k1_transparent`, `Torchdyn.C07_k1_cost`, `Torchdyn.C08_step_equivariant`, `Torchdyn.C08_adaptive_step_equivariant`, `Torchdyn.C08_time_shift`, `Torchdyn.C08_time_reversal`, `Torchdyn.C10_hyper_residual`, `Torchdyn.C10_hyper_zero`, `Torchdyn.C12_short_grid`, `Torchdyn.C19_equivariant`, `Torchdyn.C19_batch_sample`, `Torchdyn.C19_batch_permute`, `Torchdyn.C40_grid_ignored`, `Torchdyn.C42_third_entry_refuted`, `Torchdyn.C46_checked_partial`, `Torchdyn.C46_adaptive`, `Torchdyn.C46_names`, `Torchdyn.C50_time_lambda_refuted`, `Torchdyn.C50_neural_ode_refuted`, `Torchdyn.C50_defunc_wrap_refuted`, `Torchdyn.C51_nfe`, `Torchdyn.C51_only_state`, `Torchdyn.C51_standardized`, `Torchdyn.C51_sde`, `Torchdyn.C52_higher_order`, `Torchdyn.C52_neural_ode`, `Torchdyn.C52_args_dropped`, `Torchdyn.C53_dynamics_partial`, `Torchdyn.C53_order_refuted`, `Torchdyn.C53_constructor_time_partial`, `Torchdyn.C53_constructor_adjoint`, `Torchdyn.C54_during_integration`, `Torchdyn.C54_order_refuted`, `Torchdyn.C55_unpack_pack`, `Torchdyn.C55_dynamics`, `Torchdyn.C55_unused_parameter_refuted`, `Torchdyn.C63_augmenter_zeros`, `Torchdyn.C64_index`, `Torchdyn.C71_missing_key`, `Torchdyn.C74_end_time_partial`, `Torchdyn.C84_after_call`, `Torchdyn.C84_seen_by_module`, `Torchdyn.C88_shifted`, `Torchdyn.C90_forward_partial`, `Torchdyn.C90_errors`, `Torchdyn.C90_trajectory_refuted`, `Torchdyn.C93_fixed`, `Torchdyn.C95_index_bounds`, `Torchdyn.C119_base_refuted`, `Torchdyn.C119_construct`, `Torchdyn.C119_assigned`, `Torchdyn.C122_forward`, `Torchdyn.C123_optimizable_refuted`, `Torchdyn.C123_second_problem_refuted`, `Torchdyn.C123_gradients_partial`, `Torchdyn.C123_frozen_refuted`, `Torchdyn.C123_unused_refuted`, `Torchdyn.C125_rows`, `Torchdyn.C129_state_refuted`.

**`propext`, `Classical.choice`, `Quot.sound`** (535): `Torchdyn.C01_dopri5_linear`, `Torchdyn.C01_dopri5_linear_error`, `Torchdyn.C02_dopri5_fsal`, `Torchdyn.C02_tsit5_fsal`, `Torchdyn.C03_dopri5_poly`, `Torchdyn.C03_dopri5_error_zero`, `Torchdyn.C03_dopri5_order_conditions`, `Torchdyn.C03_dopri5_embedded_order_conditions`, `Torchdyn.C03_dopri5_row_sums`, `Torchdyn.C04_tsit5_order_conditions`, `Torchdyn.C04_tsit5_embedded_order_conditions`, `Torchdyn.C04_tsit5_row_sums`, `Torchdyn.C04_tsit5_const`, `Torchdyn.C05_rk4_autonomous_partial`, `Torchdyn.C05_rk4_linear_partial`, `Torchdyn.C05_rk4_time_dependent_refuted`, `Torchdyn.C05_rk4_time_defect`, `Torchdyn.C05_rk4_order_conditions_partial`, `Torchdyn.C06_euler_linear`, `Torchdyn.C06_midpoint_linear`, `Torchdyn.C06_euler_const`, `Torchdyn.C06_midpoint_poly`, `Torchdyn.C06_formulas`, `Torchdyn.C07_k1_used`, `Torchdyn.C09_alf_grid`, `Torchdyn.C09_alf_reversible`, `Torchdyn.C09_alf_mirror`, `Torchdyn.C09_alf_formula`, `Torchdyn.C10_hyper_exact`, `Torchdyn.C11_implicit_euler_partial`, `Torchdyn.C11_implicit_euler_dissipative`, `Torchdyn.C11_implicit_euler_new_time_refuted`, `Torchdyn.C12_trajectory`, `Torchdyn.C12_rejects_close_grid`, `Torchdyn.C12_euler`, `Torchdyn.C12_four_tuple_rejected`, `Torchdyn.C13_save_at`, `Torchdyn.C13_unsorted_refuted`, `Torchdyn.C14_outside_refuted`, `Torchdyn.C14_outside_partial`, `Torchdyn.C14_close_save_at_rejected`, `Torchdyn.C15_clock`, `Torchdyn.C15_recognised_partial`, `Torchdyn.C15_crossing_refuted`, `Torchdyn.C16_split_backward`, `Torchdyn.C16_split`, `Torchdyn.C17_backward_partial`, `Torchdyn.C17_backward_builtin_partial`, `Torchdyn.C17_returned_times_refuted`, `Torchdyn.C17_backward_save_at_refuted`, `Torchdyn.C17_round_trip_const`, `Torchdyn.C18_nfe`, `Torchdyn.C18_nfe_alf`, `Torchdyn.C20_euler_converges`, `Torchdyn.C21_times`, `Torchdyn.C21_times_backward`, `Torchdyn.C21_short_grid`, `Torchdyn.C21_fuel_irrelevant`, `Torchdyn.C22_accepted`, `Torchdyn.C22_accepted_backward`, `Torchdyn.C23_all_eval`, `Torchdyn.C23_all_eval_consecutive`, `Torchdyn.C24_attempts`, `Torchdyn.C24_window_dopri5`, `Torchdyn.C24_window_tsit5`, `Torchdyn.C24_evaluations_partial`, `Torchdyn.C24_trial_point_refuted`, `Torchdyn.C25_controller`, `Torchdyn.C25_builtin`, `Torchdyn.C25_monotone`, `Torchdyn.C25_target`, `Torchdyn.C25_zero`, `Torchdyn.C26_init_step`, `Torchdyn.C26_target`, `Torchdyn.C27_terminates_general`, `Torchdyn.C27_terminates_backward`, `Torchdyn.C27_terminates_dopri5`, `Torchdyn.C27_terminates_tsit5`, `Torchdyn.C27_terminates_linear_growth`, `Torchdyn.C27_terminates_dopri5_linear`, `Torchdyn.C27_terminates_tsit5_linear`, `Torchdyn.C28_diverges_when_rejected`, `Torchdyn.C28_always_returns_refuted`, `Torchdyn.C29_nfe_dopri5`, `Torchdyn.C29_nfe_tsit5`, `Torchdyn.C30_poly_exact`, `Torchdyn.C30_poly_exact_backward`, `Torchdyn.C31_values`, `Torchdyn.C31_reproduces_quartics`, `Torchdyn.C31_derivatives`, `Torchdyn.C32_grid_independent`, `Torchdyn.C32_outputs`, `Torchdyn.C33_trace`, `Torchdyn.C33_errors`, `Torchdyn.C34_jspan_ignored`, `Torchdyn.C34_suppressed`, `Torchdyn.C34_two_jumps_refuted`, `Torchdyn.C35_visits_partial`, `Torchdyn.C35_visits_refuted`, `Torchdyn.C36_times_partial`, `Torchdyn.C36_final_time_refuted`, `Torchdyn.C37_no_events_partial`, `Torchdyn.C37_strict_refuted`, `Torchdyn.C38_parareal`, `Torchdyn.C38_converged`, `Torchdyn.C38_default_guess`, `Torchdyn.C38_fixed_point`, `Torchdyn.C39_maxiter_partial`, `Torchdyn.C39_maxiter_refuted`, `Torchdyn.C40_nonuniform_refuted`, `Torchdyn.C40_uniform_partial`, `Torchdyn.C41_default_refuted`, `Torchdyn.C41_fixed_point_refuted`, `Torchdyn.C41_one_sweep_partial`, `Torchdyn.C42_jagged_partial`, `Torchdyn.C42_two_points_partial`, `Torchdyn.C42_repeated_point_refuted`, `Torchdyn.C43_no_noise`, `Torchdyn.C43_agrees_with_odeint`, `Torchdyn.C44_queries`, `Torchdyn.C44_additive`, `Torchdyn.C45_additive_partial`, `Torchdyn.C45_additive_time_partial`, `Torchdyn.C45_linear_partial`, `Torchdyn.C45_linear_no_drift_partial`, `Torchdyn.C45_additive_refuted`, `Torchdyn.C45_linear_refuted`, `Torchdyn.C46_matching_accepted`, `Torchdyn.C46_milstein_refuted`, `Torchdyn.C47_certified`, `Torchdyn.C47_errors`, `Torchdyn.C48_broyden_secant`, `Torchdyn.C48_broyden_orthogonal`, `Torchdyn.C48_broyden_fast_secant`, `Torchdyn.C48_broyden_fast_contracts`, `Torchdyn.C48_broyden_fast_orthogonal`, `Torchdyn.C49_naive`, `Torchdyn.C49_armijo_partial`, `Torchdyn.C49_searches_return`, `Torchdyn.C49_cubic`, `Torchdyn.C49_true_slope_refuted`, `Torchdyn.C53_adaptive_refuted`, `Torchdyn.C53_quadrature_partial`, `Torchdyn.C53_loss_in_error_norm`, `Torchdyn.C54_control`, `Torchdyn.C54_unaugmented`, `Torchdyn.C55_pack_unpack`, `Torchdyn.C55_interp`, `Torchdyn.C55_interp_empty`, `Torchdyn.C56_linear_gradient`, `Torchdyn.C56_euler`, `Torchdyn.C56_decreasing_refuted`, `Torchdyn.C57_autograd_partial`, `Torchdyn.C57_adjoint_refuted`, `Torchdyn.C57_args_refuted`, `Torchdyn.C57_unknown_sensitivity`, `Torchdyn.C59_energy_conserved`, `Torchdyn.C59_sample_energy_conserved`, `Torchdyn.C59_odd_refuted`, `Torchdyn.C60_energy_antitone`, `Torchdyn.C60_rate`, `Torchdyn.C61_autograd_trace`, `Torchdyn.C61_forward`, `Torchdyn.C61_default`, `Torchdyn.C61_ignores_first_column`, `Torchdyn.C61_order_refuted`, `Torchdyn.C62_quadratic_form`, `Torchdyn.C62_unbiased`, `Torchdyn.C62_unbiased_finite`, `Torchdyn.C62_needs_noise`, `Torchdyn.C64_weights`, `Torchdyn.C64_weights_constant`, `Torchdyn.C64_forward`, `Torchdyn.C64_init_zero`, `Torchdyn.C64_fourier`, `Torchdyn.C65_layer_partial`, `Torchdyn.C65_weights_partial`, `Torchdyn.C65_direct_refuted`, `Torchdyn.C66_moons_size`, `Torchdyn.C66_moons_geometry`, `Torchdyn.C66_moons_ends`, `Torchdyn.C66_spirals_size`, `Torchdyn.C66_spirals_geometry`, `Torchdyn.C66_gaussians`, `Torchdyn.C66_gaussians_spiral`, `Torchdyn.C66_gaussians_three_refuted`, `Torchdyn.C66_gaussians_dim_refuted`, `Torchdyn.C67_sphere`, `Torchdyn.C67_even_partial`, `Torchdyn.C67_odd_refuted`, `Torchdyn.C67_three_refuted`, `Torchdyn.C68_names`, `Torchdyn.C68_ms_names`, `Torchdyn.C69_adaptive_refuted`, `Torchdyn.C69_fixed_partial`, `Torchdyn.C69_order`, `Torchdyn.C69_other_solvers`, `Torchdyn.C70_run`, `Torchdyn.C70_causal`, `Torchdyn.C70_last`, `Torchdyn.C70_reverse_refuted`, `Torchdyn.C71_stack`, `Torchdyn.C71_run`, `Torchdyn.C72_seminorm_partial`, `Torchdyn.C72_error_ratio`, `Torchdyn.C72_prefix_partial`, `Torchdyn.C72_flag`, `Torchdyn.C72_initial_step_refuted`, `Torchdyn.C73_linear_rate_partial`, `Torchdyn.C73_default_search_refuted`, `Torchdyn.C74_start_time_refuted`, `Torchdyn.C75_adjoint_partial`, `Torchdyn.C75_interpolated_partial`, `Torchdyn.C75_interpolated_adaptive_refuted`, `Torchdyn.C76_euler_lagrange`, `Torchdyn.C76_velocity`, `Torchdyn.C76_energy`, `Torchdyn.C78_spacing_partial`, `Torchdyn.C78_degrees_refuted`, `Torchdyn.C78_polynomial_refuted`, `Torchdyn.C79_no_bias_refuted`, `Torchdyn.C79_adaptive_rbf_refuted`, `Torchdyn.C79_fixed_rbf_partial`, `Torchdyn.C80_located_partial`, `Torchdyn.C80_error_refuted`, `Torchdyn.C81_dopri5_order`, `Torchdyn.C81_tsit5_order`, `Torchdyn.C82_midpoint_converges`, `Torchdyn.C82_rk4_converges_partial`, `Torchdyn.C82_euler_converges`, `Torchdyn.C82_rk4_time_refuted`, `Torchdyn.C82_declared_order_exact`, `Torchdyn.C83_variation`, `Torchdyn.C83_gradient`, `Torchdyn.C83_frechet`, `Torchdyn.C85_leapfrog_retrace_partial`, `Torchdyn.C85_leapfrog_backward`, `Torchdyn.C85_leapfrog_refuted`, `Torchdyn.C85_adaptive_refuted`, `Torchdyn.C86_dopri5`, `Torchdyn.C86_dopri5_backward`, `Torchdyn.C86_tsit5`, `Torchdyn.C86_dopri5_total`, `Torchdyn.C87_step`, `Torchdyn.C87_run`, `Torchdyn.C88_residual`, `Torchdyn.C88_time_partial`, `Torchdyn.C88_time_refuted`, `Torchdyn.C88_first_row`, `Torchdyn.C88_odeint`, `Torchdyn.C88_short`, `Torchdyn.C88_unique`, `Torchdyn.C88_accuracy`, `Torchdyn.C89_forward`, `Torchdyn.C89_trajectory_partial`, `Torchdyn.C89_repeatable`, `Torchdyn.C89_accuracy`, `Torchdyn.C89_trajectory_refuted`, `Torchdyn.C90_no_noise`, `Torchdyn.C90_default_refuted`, `Torchdyn.C91_batch`, `Torchdyn.C91_permute`, `Torchdyn.C91_repeat`, `Torchdyn.C92_fixed_backward`, `Torchdyn.C92_translation`, `Torchdyn.C92_backward_partial`, `Torchdyn.C92_fixed`, `Torchdyn.C92_backward_refuted`, `Torchdyn.C93_adaptive`, `Torchdyn.C94_reflection`, `Torchdyn.C94_lorenz_symmetry`, `Torchdyn.C94_rabinovich_symmetry`, `Torchdyn.C94_rabinovich_dissipative`, `Torchdyn.C94_vanDerPol_symmetry`, `Torchdyn.C94_vanDerPol_nfe`, `Torchdyn.C94_lorenz_bounded`, `Torchdyn.C94_returns`, `Torchdyn.C94_fourier_times`, `Torchdyn.C94_fourier_displacement`, `Torchdyn.C95_forward`, `Torchdyn.C95_size`, `Torchdyn.C95_translation`, `Torchdyn.C95_init_zero`, `Torchdyn.C95_half_unused`, `Torchdyn.C95_errors`, `Torchdyn.C96_rows_partial`, `Torchdyn.C96_unknown_keyword`, `Torchdyn.C96_unknown_refuted`, `Torchdyn.C96_samples_refuted`, `Torchdyn.C96_logo`, `Torchdyn.C96_diffeqml`, `Torchdyn.C96_forwards`, `Torchdyn.C97_log_det`, `Torchdyn.C97_density`, `Torchdyn.C97_normalised`, `Torchdyn.C98_accuracy`, `Torchdyn.C98_hyperEuler_second_order`, `Torchdyn.C98_forward_exact`, `Torchdyn.C98_backward_refuted`, `Torchdyn.C98_accuracy_local`, `Torchdyn.C98_hyperEuler_second_order_local`, `Torchdyn.C99_stationary`, `Torchdyn.C99_solvable`, `Torchdyn.C99_converged`, `Torchdyn.C99_contractive`, `Torchdyn.C99_accuracy`, `Torchdyn.C100_converges`, `Torchdyn.C100_rate`, `Torchdyn.C101_local_convergence`, `Torchdyn.C102_descent`, `Torchdyn.C102_convex_rate`, `Torchdyn.C103_no_overshoot_partial`, `Torchdyn.C103_ratio_partial`, `Torchdyn.C103_power_partial`, `Torchdyn.C103_lost_refuted`, `Torchdyn.C104_stable`, `Torchdyn.C104_initial_state`, `Torchdyn.C105_log_likelihood`, `Torchdyn.C106_euler`, `Torchdyn.C106_midpoint`, `Torchdyn.C106_rk4_partial`, `Torchdyn.C106_rk4_time_refuted`, `Torchdyn.C107_euler`, `Torchdyn.C107_midpoint`, `Torchdyn.C107_rk4_partial`, `Torchdyn.C107_rk4_time_refuted`, `Torchdyn.C108_rk4_time_refuted`, `Torchdyn.C108_euler`, `Torchdyn.C108_midpoint`, `Torchdyn.C108_rk4_partial`, `Torchdyn.C109_euler`, `Torchdyn.C109_midpoint`, `Torchdyn.C109_rk4_partial`, `Torchdyn.C109_rk4_time_refuted`, `Torchdyn.C110_rk4`, `Torchdyn.C110_augmented`, `Torchdyn.C110_gradients`, `Torchdyn.C111_alf`, `Torchdyn.C112_linear`, `Torchdyn.C112_unstable`, `Torchdyn.C113_parareal`, `Torchdyn.C113_lipschitz`, `Torchdyn.C113_euler_rk4`, `Torchdyn.C114_mean`, `Torchdyn.C114_second_moment`, `Torchdyn.C114_stability`, `Torchdyn.C114_schemes`, `Torchdyn.C115_names`, `Torchdyn.C115_fixed`, `Torchdyn.C115_tsit5`, `Torchdyn.C115_unknown`, `Torchdyn.C115_short`, `Torchdyn.C115_list_partial`, `Torchdyn.C115_list_refuted`, `Torchdyn.C115_matrix`, `Torchdyn.C116_strong`, `Torchdyn.C117_limit`, `Torchdyn.C118_methods`, `Torchdyn.C118_names`, `Torchdyn.C118_attributes`, `Torchdyn.C118_unknown`, `Torchdyn.C118_objects`, `Torchdyn.C118_adaptive`, `Torchdyn.C118_forward`, `Torchdyn.C119_fixed_partial`, `Torchdyn.C119_adaptive_partial`, `Torchdyn.C119_no_step`, `Torchdyn.C119_stepping_class_refuted`, `Torchdyn.C120_all_tolerances_refuted`, `Torchdyn.C120_finitely_many_evaluations`, `Torchdyn.C120_tolerance_refuted`, `Torchdyn.C120_tolerance_tsit5_refuted`, `Torchdyn.C120_reliable_partial`, `Torchdyn.C120_decay_partial`, `Torchdyn.C121_names`, `Torchdyn.C121_error_weights`, `Torchdyn.C121_objects`, `Torchdyn.C121_reuse`, `Torchdyn.C121_problem_partial`, `Torchdyn.C121_problem_refuted`, `Torchdyn.C121_reuse_refuted`, `Torchdyn.C121_rk4_scaled`, `Torchdyn.C121_rk4_problem_refuted`, `Torchdyn.C121_rk4_name`, `Torchdyn.C121_adaptive_problem_refuted`, `Torchdyn.C122_adjoint_partial`, `Torchdyn.C122_interpolated_refuted`, `Torchdyn.C122_other`, `Torchdyn.C123_optimizable_partial`, `Torchdyn.C123_not_parameter`, `Torchdyn.C124_half`, `Torchdyn.C124_one_partial`, `Torchdyn.C124_mean_partial`, `Torchdyn.C124_euler_refuted`, `Torchdyn.C124_stratonovich_bias_refuted`, `Torchdyn.C124_stratonovich_refuted`, `Torchdyn.C125_gradient`, `Torchdyn.C125_terminal_partial`, `Torchdyn.C125_exact`, `Torchdyn.C125_rows_refuted`, `Torchdyn.C126_tested_partial`, `Torchdyn.C126_parameter_gradient_refuted`, `Torchdyn.C126_full_norm_rejects`, `Torchdyn.C127_affine`, `Torchdyn.C127_local`, `Torchdyn.C127_errors`, `Torchdyn.C127_diagonal_partial`, `Torchdyn.C127_per_sample_refuted`, `Torchdyn.C127_per_sample_certified`, `Torchdyn.C127_fast_diagonal_refuted`, `Torchdyn.C128_terminates_partial`, `Torchdyn.C128_origin_refuted`, `Torchdyn.C129_adjoint_partial`, `Torchdyn.C129_interp_partial`, `Torchdyn.C129_parameter_refuted`, `Torchdyn.C129_dummy_parameter`, `Torchdyn.C129_misplaced_refuted`, `Torchdyn.C130_euler`, `Torchdyn.C130_midpoint`, `Torchdyn.C130_rk4`, `Torchdyn.C130_hyper`, `Torchdyn.C130_save_at`, `Torchdyn.C130_ieuler_refuted`, `Torchdyn.C130_ieuler_values`, `Torchdyn.C130_ieuler_exact_refuted`, `Torchdyn.C130_euler_converges`, `Torchdyn.C130_midpoint_converges`, `Torchdyn.C130_rk4_converges_partial`, `Torchdyn.C131_values`, `Torchdyn.C131_event_refuted`, `Torchdyn.C131_gradient_refuted`, `Torchdyn.C131_gradient_partial`, `Torchdyn.C131_quiet_gradient`, `Torchdyn.C132_values`, `Torchdyn.C132_gradient`, `Torchdyn.C132_gradient_backward`, `Torchdyn.C132_tolerance_refuted`, `Torchdyn.C133_state_units`, `Torchdyn.C133_entry_units_refuted`, `Torchdyn.C133_time_units_partial`, `Torchdyn.C133_time_units_refuted`, `Torchdyn.C134_mode`, `Torchdyn.C134_euler_decay`, `Torchdyn.C134_midpoint_decay`, `Torchdyn.C134_rk4_decay`, `Torchdyn.C134_euler_oscillation`, `Torchdyn.C134_midpoint_oscillation`, `Torchdyn.C134_rk4_oscillation`, `Torchdyn.C134_hnn_euler`, `Torchdyn.C135_noise_axis_refuted`, `Torchdyn.C135_diagonal`, `Torchdyn.C136_fourier_partial`, `Torchdyn.C136_polynomial_partial`, `Torchdyn.C136_rbf_partial`, `Torchdyn.C136_chebychev_partial`, `Torchdyn.C136_chebychev_refuted`, `Torchdyn.C136_chebychev_one_partial`, `Torchdyn.C136_init`, `Torchdyn.C137_frozen_partial`, `Torchdyn.C137_gradient_refuted`, `Torchdyn.C138_renamed_time_refuted`, `Torchdyn.C138_odeint`, `Torchdyn.C138_ode_problem_partial`, `Torchdyn.C138_neural_ode_partial`, `Torchdyn.C138_refuted`, `Torchdyn.C139_expanded_partial`, `Torchdyn.C139_shape_partial`, `Torchdyn.C139_raises_partial`, `Torchdyn.C139_scalar_refuted`, `Torchdyn.C139_save_at_refuted`, `Torchdyn.C140_types_partial`, `Torchdyn.C140_values`, `Torchdyn.C140_float64_refuted`, `Torchdyn.C140_scalar_refuted`, `Torchdyn.C140_fixed`, `Torchdyn.C140_wider`, `Torchdyn.C141_euler`, `Torchdyn.C141_midpoint`, `Torchdyn.C141_rk4_partial`, `Torchdyn.C141_rk4_refuted`, `Torchdyn.C142_resource_partial`, `Torchdyn.C142_quiet_partial`, `Torchdyn.C142_dwell_partial`, `Torchdyn.C142_active_refuted`, `Torchdyn.C142_close_refuted`, `Torchdyn.C143_near_partial`, `Torchdyn.C143_near_tsit5_partial`, `Torchdyn.C143_spurious_refuted`, `Torchdyn.C144_logger`, `Torchdyn.C146_hnn_drift_partial`, `Torchdyn.C146_gnf_descent`, `Torchdyn.C146_exact_refuted`, `Torchdyn.C147_divergence`, `Torchdyn.C147_forward`, `Torchdyn.C147_fixed`, `Torchdyn.C147_adaptive`, `Torchdyn.C147_hutch_mean_partial`, `Torchdyn.C147_hutch_refuted`, `Torchdyn.C147_odd_refuted`, `Torchdyn.C148_dopri5_checkpoints`, `Torchdyn.C148_dopri5_gradients`, `Torchdyn.C149_clock_run`, `Torchdyn.C149_initial`, `Torchdyn.C149_holding_times`, `Torchdyn.C149_arrivals`, `Torchdyn.C149_returns`, `Torchdyn.C149_law`, `Torchdyn.C149_law_dopri5`, `Torchdyn.C149_law_tsit5`, `Torchdyn.C150_single_partial`, `Torchdyn.C150_batch_refuted`, `Torchdyn.C151_sample_partial`, `Torchdyn.C151_dilution_refuted`, `Torchdyn.C151_sample_refuted`, `Torchdyn.C152_run`, `Torchdyn.C152_energy`, `Torchdyn.C152_returns`, `Torchdyn.C153_dopri5`, `Torchdyn.C153_euler`, `Torchdyn.C153_midpoint`, `Torchdyn.C153_rk4`, `Torchdyn.C153_bijective`, `Torchdyn.C153_bijective_backward`, `Torchdyn.C153_large_step_refuted`, `Torchdyn.C153_exact_refuted`, `Torchdyn.C154_dopri5`, `Torchdyn.C154_dopri5_backward`, `Torchdyn.C155_dopri5_equilibrium`, `Torchdyn.C155_contraction`, `Torchdyn.C155_equilibrium`, `Torchdyn.C155_accuracy`, `Torchdyn.C155_dopri5`, `Torchdyn.C155_local`, `Torchdyn.C156_convergence`, `Torchdyn.C156_dopri5`.

