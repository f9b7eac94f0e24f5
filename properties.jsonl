{"id": "C01", "title": "dopri5 is 5th order on every linear system", "statement": "For x' = A x, one `dopri5` step of size h returns exactly sum_{j<=5} (hA)^j/j! x + (hA)^6/600 x, and its error estimate is a polynomial in hA that starts at (hA)^5.", "quantifier": "every linear operator A on every vector space, every state x, time t and step size h", "why_tests_cant": "Tests check one system at one tolerance; a wrong tableau coefficient only shows as a slightly larger error there.", "anchors": ["torchdyn/numerics/solvers/ode.py:DormandPrince45.step", "torchdyn/numerics/solvers/_constants.py:construct_dopri5"]}
{"id": "C02", "title": "The derivative returned by dopri5/tsit5 is the derivative at the new point", "statement": "The first component returned by one step of `dopri5` or `tsit5` equals f(t+dt, x_new), so it may be reused as the first stage of the next step.", "quantifier": "every vector field f (no continuity assumed), state, time, step size", "why_tests_cant": "Holds or fails for all f at once; a test with one f cannot exclude a mismatch for another.", "anchors": ["torchdyn/numerics/solvers/ode.py:DormandPrince45.step", "torchdyn/numerics/solvers/ode.py:Tsitouras45.step", "torchdyn/numerics/solvers/_constants.py"]}
{"id": "C03", "title": "dopri5 integrates polynomial-in-time fields exactly", "statement": "If x'(t)=p(t) with p a vector polynomial of degree at most 4, one `dopri5` step gives the exact integral; the error estimate is exactly zero when the degree is at most 3. All 17 order conditions up to order 5 hold for the weights and all 8 conditions up to order 4 for the embedded weights.", "quantifier": "every polynomial of degree <=4 with coefficients in any vector space, every t and dt", "why_tests_cant": "Infinite family of right-hand sides; rounding hides small coefficient errors in tests.", "anchors": ["torchdyn/numerics/solvers/ode.py:DormandPrince45.step", "torchdyn/numerics/solvers/_constants.py:construct_dopri5"]}
{"id": "C04", "title": "tsit5 coefficients are 5th order up to 1e-80", "statement": "Row sums, the 17 order conditions for the `tsit5` weights and the 8 conditions for its embedded weights hold up to an absolute error of 1e-80, so any defect is far below float64 resolution; one step on a constant field c moves x by dt*c up to 1e-80 relative error.", "quantifier": "all order conditions of the tableau as written; every state and field value", "why_tests_cant": "Single/double precision tests cannot see or localise a mistyped digit beyond the 16th and rarely one in the 8th.", "anchors": ["torchdyn/numerics/solvers/ode.py:Tsitouras45.step", "torchdyn/numerics/solvers/_constants.py:construct_tsit5"]}
{"id": "C05", "title": "rk4 is 4th order", "statement": "One `rk4` step has fourth order accuracy for every right-hand side: on x'=Ax it returns sum_{j<=4}(hA)^j/j! x, and on x'=p(t) with deg p<=3 it returns the exact integral.", "quantifier": "every linear operator, every polynomial of degree <=3 in time, every t, h", "why_tests_cant": "Existing tests only use autonomous fields; the time arguments of the stages are never exercised.", "anchors": ["torchdyn/numerics/solvers/ode.py:RungeKutta4.step", "torchdyn/numerics/solvers/_constants.py:construct_rk4"]}
{"id": "C06", "title": "euler is 1st and midpoint 2nd order", "statement": "On x'=Ax a `euler` step returns (I+hA)x and a `midpoint` step (I+hA+(hA)^2/2)x; on x'=p(t) midpoint is exact for deg p<=1, euler for constants.", "quantifier": "every operator, polynomial, t, h", "why_tests_cant": "Universally quantified over fields.", "anchors": ["torchdyn/numerics/solvers/ode.py:Euler.step", "torchdyn/numerics/solvers/ode.py:Midpoint.step"]}
{"id": "C07", "title": "Supplying the first stage never changes a step", "statement": "For every built-in explicit solver, calling step with k1=f(t,x) gives the same result as calling it with k1=None.", "quantifier": "every f, x, t, dt, every explicit solver", "why_tests_cant": "Relational property over all inputs.", "anchors": ["torchdyn/numerics/solvers/ode.py"]}
{"id": "C08", "title": "Solver steps commute with linear changes of coordinates", "statement": "If phi is linear and phi(f(t,x))=g(t,phi(x)) then phi(step f x)=step g (phi x) for every explicit Runge-Kutta solver (solution, error estimate and returned derivative). Consequence: with fixed-step solvers each sample of a batch is integrated independently of the others.", "quantifier": "every linear phi between any two spaces, every pair f,g, every tableau", "why_tests_cant": "Two-run (relational) property over all fields and maps.", "anchors": ["torchdyn/numerics/solvers/ode.py", "torchdyn/numerics/odeint.py:_fixed_odeint"]}
{"id": "C09", "title": "Asynchronous leapfrog is time reversible", "statement": "Taking an `alf` step from (x,v) and then a step with -dt from the result returns exactly (x,v); integrating back over the negated field with negated velocity also returns to the start, over any grid.", "quantifier": "every field, state, time, step size, every grid", "why_tests_cant": "Algebraic identity over all inputs; floating-point tests only see approximate equality.", "anchors": ["torchdyn/numerics/solvers/ode.py:AsynchronousLeapfrog.step"]}
{"id": "C10", "title": "Hypersolvers add exactly dt^(p+1) times the hypernet", "statement": "A hypersolver step equals the base solver step plus dt^(order+1)*g(t,x); with g=0 it is the base solver, and if g is the scaled local residual the step is exact.", "quantifier": "every f, hypernet, x, t, dt", "why_tests_cant": "All functions f and g.", "anchors": ["torchdyn/numerics/solvers/hyper.py"]}
{"id": "C11", "title": "Implicit Euler solves the backward Euler equation", "statement": "Whenever the inner minimiser reaches a zero residual, the new state satisfies x_new = x + dt f(t+dt, x_new); hence for dissipative linear fields the step never grows the state.", "quantifier": "every f, x, t, dt and every optimiser outcome with zero residual", "why_tests_cant": "Depends on the minimiser; property must hold for all fields including time-varying ones.", "anchors": ["torchdyn/numerics/solvers/ode.py:ImplicitEuler"]}
{"id": "C12", "title": "Fixed-step odeint returns the solver trajectory on t_span", "statement": "With a fixed-step solver and no save_at, odeint returns t_span itself and one state per time point: the first is x, each next one is obtained by one solver step from its predecessor over exactly the gap between the two time points. Grids whose points are not separated by torch.isclose are rejected with AssertionError; grids of fewer than two points raise IndexError.", "quantifier": "every field, solver, initial state, grid of any length (uniform or not)", "why_tests_cant": "Any grid length and spacing, any field.", "anchors": ["torchdyn/numerics/odeint.py:_fixed_odeint"]}
{"id": "C13", "title": "save_at selects states without changing them", "statement": "With save_at a subset of t_span (in t_span order) fixed-step odeint returns save_at and, aligned with it, exactly the states that the run without save_at gives at those times.", "quantifier": "every field, solver, grid, every sub-selection of the grid", "why_tests_cant": "All subsets of all grids.", "anchors": ["torchdyn/numerics/odeint.py:_fixed_odeint"]}
{"id": "C14", "title": "save_at points outside t_span are rejected", "statement": "If some save_at point is not in t_span, odeint refuses the call, as its assertion message says; the returned times and states always have equal length.", "quantifier": "every t_span and save_at", "why_tests_cant": "Needs every pair (t_span, save_at).", "anchors": ["torchdyn/numerics/odeint.py:_fixed_odeint"]}
{"id": "C15", "title": "Rounding does not make the fixed-step clock drift", "statement": "With floating-point time arithmetic the internal time after k steps stays within a bound of t_span[k] that depends on the rounding unit and the grid magnitude but not on k, hence the save-point test recognises every grid point.", "quantifier": "every grid and every rounding satisfying the standard model of floating point", "why_tests_cant": "Long grids and all rounding patterns cannot be enumerated.", "anchors": ["torchdyn/numerics/odeint.py:_fixed_odeint"]}
{"id": "C16", "title": "Integration can be split and resumed", "statement": "Solving over a grid equals solving over a prefix, then restarting from the last state over the remaining grid that begins at the split point.", "quantifier": "every grid in both directions, every split point, every field and fixed-step solver", "why_tests_cant": "All split points of all grids.", "anchors": ["torchdyn/numerics/odeint.py:_fixed_odeint"]}
{"id": "C17", "title": "Integrating backwards in time equals the mirrored forward problem", "statement": "For t_span decreasing, odeint with a fixed-step solver returns the states of the forward problem with field -f(-t,x) on -t_span, i.e. of stepping f with negative steps along t_span; the returned times are t_span.", "quantifier": "every field, solver, decreasing grid", "why_tests_cant": "All fields/grids; relational.", "anchors": ["torchdyn/numerics/odeint.py:odeint"]}
{"id": "C18", "title": "Number of function evaluations of fixed-step solvers", "statement": "A fixed-step solve over n time points calls the vector field exactly (n-1)*s times, s=1 for euler, 2 for midpoint, 4 for rk4, 2 for alf (1 used).", "quantifier": "every field and grid", "why_tests_cant": "All grids.", "anchors": ["torchdyn/numerics/odeint.py:_fixed_odeint", "torchdyn/numerics/solvers/ode.py"]}
{"id": "C19", "title": "Batch samples are solved independently by fixed-step solvers", "statement": "The solution of sample i of a batch under a fixed-step solver equals the solution of that sample alone; permuting the batch permutes the solution.", "quantifier": "every batch size, sample index, permutation, field acting per sample, grid", "why_tests_cant": "All batches.", "anchors": ["torchdyn/numerics/odeint.py:_fixed_odeint", "torchdyn/numerics/solvers/ode.py"]}
{"id": "C20", "title": "Euler converges", "statement": "For f Lipschitz in x (constant L) and an exact solution with |y''|<=M, the states returned by euler on any grid with steps <= h differ from y by at most h*M/2*(T-t0)*exp(L(T-t0)).", "quantifier": "every field, solution, grid of any size", "why_tests_cant": "Asymptotic statement over all grids.", "anchors": ["torchdyn/numerics/odeint.py:_fixed_odeint", "torchdyn/numerics/solvers/ode.py:Euler.step"]}
{"id": "C21", "title": "Adaptive odeint returns exactly the requested times", "statement": "Whenever adaptive odeint returns, the returned times are exactly t_span and there is one state per time, the first being x; no exception is raised on the way.", "quantifier": "every strictly increasing t_span, every field, tolerance, solver, every sequence of accepted and rejected steps", "why_tests_cant": "Depends on every interleaving of accept/reject/checkpoint decisions.", "anchors": ["torchdyn/numerics/odeint.py:_adaptive_odeint"]}
{"id": "C22", "title": "Adaptive odeint outputs are reached only through accepted steps", "statement": "Without interpolation every returned state is linked to the initial state by consecutive solver steps whose error ratio was at most 1, each step starting at the state and time where the previous one ended.", "quantifier": "every field, solver, tolerance, t_span, every history of the loop", "why_tests_cant": "All histories.", "anchors": ["torchdyn/numerics/odeint.py:_adaptive_odeint"]}
{"id": "C23", "title": "return_all_eval returns every accepted step", "statement": "With return_all_eval the returned times are strictly increasing from t_span[0] to t_span[-1], contain every point of t_span and one state per time; every accepted step end point is among them.", "quantifier": "all histories of the adaptive loop", "why_tests_cant": "All histories.", "anchors": ["torchdyn/numerics/odeint.py:_adaptive_odeint"]}
{"id": "C24", "title": "The adaptive solver always moves forward and never past a requested time", "statement": "Every attempted step size is positive, the current time never exceeds the final time nor (without interpolation) the next requested time, and the vector field is never evaluated outside the time span.", "quantifier": "every reachable state of the loop", "why_tests_cant": "All reachable states.", "anchors": ["torchdyn/numerics/odeint.py:_adaptive_odeint"]}
{"id": "C25", "title": "Step size controller", "statement": "The next step size is the current one times a factor in [0.2,10]; after a step with error ratio < 1 it never shrinks, after a rejected one it shrinks by at least 10 percent; it is monotone in the error. Under the model error ~ h^order the predicted error of the next step is exactly safety^order unless one of the limits on the factor is active.", "quantifier": "every positive dt, every error ratio >= 0, every order >= 1", "why_tests_cant": "Real-valued inputs.", "anchors": ["torchdyn/numerics/utils.py:adapt_step"]}
{"id": "C26", "title": "The initial step is positive", "statement": "init_step returns a strictly positive step no larger than 100 times the trial step, for every field and state when atol>0; it is the largest such step h with D*h^(order+1) <= 0.01, D the larger scaled norm of the first and (estimated) second derivative, unless D <= 1e-15.", "quantifier": "every f, x0, t0, order, atol>0, rtol>=0", "why_tests_cant": "All fields.", "anchors": ["torchdyn/numerics/utils.py:init_step"]}
{"id": "C27", "title": "Adaptive odeint terminates on bounded vector fields and on fields of linear growth", "statement": "For dopri5 and tsit5, atol>0, and every vector field that is bounded or grows at most linearly in the state, the adaptive solver returns after finitely many iterations.", "quantifier": "every bounded or linearly growing f (not necessarily continuous), x, t_span, tolerances", "why_tests_cant": "Termination is not testable.", "anchors": ["torchdyn/numerics/odeint.py:_adaptive_odeint", "torchdyn/numerics/utils.py:adapt_step"]}
{"id": "C28", "title": "Adaptive odeint always returns or raises", "statement": "For every input adaptive odeint eventually returns or raises.", "quantifier": "every vector field, including ones producing NaN or unbounded errors", "why_tests_cant": "Non-termination cannot be observed by a test.", "anchors": ["torchdyn/numerics/odeint.py:_adaptive_odeint"]}
{"id": "C29", "title": "Number of function evaluations of adaptive solvers", "statement": "An adaptive solve with dopri5/tsit5 that performs n loop iterations (accepted or rejected) calls the vector field exactly 2+6n times.", "quantifier": "every run", "why_tests_cant": "All histories.", "anchors": ["torchdyn/numerics/odeint.py:odeint", "torchdyn/numerics/odeint.py:_adaptive_odeint", "torchdyn/numerics/solvers/ode.py"]}
{"id": "C30", "title": "Adaptive dopri5 is exact on polynomial-in-time fields", "statement": "For x'=p(t), deg p<=4, every state returned by adaptive dopri5 (no interpolator) is the exact solution at its time whatever the tolerances and accept/reject history.", "quantifier": "every polynomial, t_span in both directions, tolerance", "why_tests_cant": "All histories and tolerances.", "anchors": ["torchdyn/numerics/odeint.py:_adaptive_odeint", "torchdyn/numerics/solvers/ode.py:DormandPrince45.step"]}
{"id": "C31", "title": "The 4th order interpolant matches the data and reproduces quartics", "statement": "The 4th-order interpolant takes the values x0, x1, x_mid at the two ends and the middle of the step, has derivatives f0, f1 at the ends, and equals q whenever the data come from a polynomial q of degree <=4.", "quantifier": "all data, all interval endpoints t0<>t1, all evaluation times", "why_tests_cant": "Real-valued quantification.", "anchors": ["torchdyn/numerics/interpolators.py"]}
{"id": "C32", "title": "Interpolation does not change which times are returned", "statement": "With the 4th-order interpolator the returned times are still exactly t_span, one state each, and the accepted-step sequence ignores interior checkpoints.", "quantifier": "every history", "why_tests_cant": "All histories.", "anchors": ["torchdyn/numerics/odeint.py:_adaptive_odeint"]}
{"id": "C33", "title": "odeint_hybrid records each jump as a before/after pair", "statement": "The returned times and states have equal length; every event appends the state before and the state after the jump at the same time, the latter being the jump map of the triggered callback applied to the former; the callback used is the one with the smallest index among those active.", "quantifier": "every field, callback list, history", "why_tests_cant": "All histories.", "anchors": ["torchdyn/numerics/odeint.py:odeint_hybrid"]}
{"id": "C34", "title": "odeint_hybrid performs at most j_span jumps", "statement": "The number of jumps applied never exceeds j_span.", "quantifier": "every field, callbacks, j_span", "why_tests_cant": "All histories.", "anchors": ["torchdyn/numerics/odeint.py:odeint_hybrid"]}
{"id": "C35", "title": "odeint_hybrid visits every t_span point", "statement": "Every time in t_span appears among the returned times of odeint_hybrid.", "quantifier": "every field, callbacks, tolerances", "why_tests_cant": "All accept/reject histories.", "anchors": ["torchdyn/numerics/odeint.py:odeint_hybrid"]}
{"id": "C36", "title": "odeint_hybrid times are nondecreasing and never pass the final time", "statement": "Returned times are nondecreasing and at most t_span[-1].", "quantifier": "every field, callbacks", "why_tests_cant": "All histories.", "anchors": ["torchdyn/numerics/odeint.py:odeint_hybrid"]}
{"id": "C37", "title": "odeint_hybrid without events is plain adaptive stepping", "statement": "If no callback ever fires, odeint_hybrid returns only accepted steps, starting from x, with strictly increasing times ending at t_span[-1].", "quantifier": "every field, t_span, callbacks that never fire", "why_tests_cant": "All histories.", "anchors": ["torchdyn/numerics/odeint.py:odeint_hybrid"]}
{"id": "C38", "title": "Parareal equals the sequential fine solution after enough iterations", "statement": "odeint_mshooting with mszero: after k iterations the first k+1 shooting states equal the sequential fine solution whatever the initial guess with B0[0]=x; with len(t_span)-1 or more iterations (of those that mszero accepts, see C39) the whole result is the fine solution.", "quantifier": "every field, initial guess, number of intervals, iterations", "why_tests_cant": "All sizes and guesses.", "anchors": ["torchdyn/numerics/solvers/ode.py:MSZero.root_solve"]}
{"id": "C39", "title": "mszero accepts any maxiter", "statement": "odeint_mshooting with mszero succeeds for every maxiter>=0 and returns one state per time point.", "quantifier": "every maxiter and t_span length", "why_tests_cant": "All sizes.", "anchors": ["torchdyn/numerics/solvers/ode.py:MSZero.root_solve"]}
{"id": "C40", "title": "Multiple shooting respects t_span", "statement": "The states returned by odeint_mshooting approximate the solution at the times of t_span, i.e. the sub-interval m is integrated over t_span[m+1]-t_span[m].", "quantifier": "every t_span", "why_tests_cant": "All non-uniform grids.", "anchors": ["torchdyn/numerics/solvers/ode.py:MSZero.root_solve"]}
{"id": "C41", "title": "Discrete-adjoint shooting is a Newton iteration", "statement": "msbackward succeeds for every maxiter and its fixed point is the sequential fine solution.", "quantifier": "every field, maxiter, t_span", "why_tests_cant": "All sizes.", "anchors": ["torchdyn/numerics/solvers/ode.py:MSBackward.root_solve"]}
{"id": "C42", "title": "Jagged parallel integration equals separate integrations", "statement": "_jagged_fixed_odeint returns for each sub-problem what the sequential fixed-step solver returns for it alone, one state per point of its own grid.", "quantifier": "any number of sub-problems, any grid lengths", "why_tests_cant": "All jagged shapes.", "anchors": ["torchdyn/numerics/odeint.py:_jagged_fixed_odeint"]}
{"id": "C43", "title": "SDE solvers reduce to Euler without noise", "statement": "With zero diffusion every SDE scheme takes the explicit Euler step.", "quantifier": "every drift, state, time, dt, Brownian path", "why_tests_cant": "All drifts/paths.", "anchors": ["torchdyn/numerics/solvers/sde.py"]}
{"id": "C44", "title": "SDE solvers consume each Brownian increment exactly once", "statement": "Over a grid the scheme queries the Brownian path on consecutive intervals tiling [t0,T]; for dx=dW the result is x0+W(T)-W(t0) on every grid.", "quantifier": "every path, grid", "why_tests_cant": "All paths and grids.", "anchors": ["torchdyn/numerics/solvers/sde.py", "torchdyn/numerics/sdeint.py:_fixed_sdeint"]}
{"id": "C45", "title": "Ito and Stratonovich schemes agree for additive noise and differ by the correction otherwise", "statement": "For state-independent diffusion Euler-Maruyama, Euler-Heun and both Milstein schemes give the same step; for linear diffusion sigma*x the Milstein schemes give the exact second-order Ito/Stratonovich expansions, differing by sigma^2 x dt/2.", "quantifier": "every drift, diffusion, path increment", "why_tests_cant": "All inputs.", "anchors": ["torchdyn/numerics/solvers/sde.py"]}
{"id": "C46", "title": "sdeint rejects an SDE whose calculus does not match the solver", "statement": "Selecting a solver for the wrong sde_type or noise_type raises an error.", "quantifier": "every solver name and SDE type", "why_tests_cant": "Finite but relational over names; includes unlisted types.", "anchors": ["torchdyn/numerics/solvers/sde.py:_check_types"]}
{"id": "C47", "title": "root_find returns certified points or exhausts its iterations", "statement": "If root_find stops before exhausting maxiters then the residual and step norms of the returned point satisfy all four tolerances; it never performs more than maxiters+1 iterations.", "quantifier": "every function, method, line search outcome, tolerance", "why_tests_cant": "All functions.", "anchors": ["torchdyn/numerics/solvers/root.py:root_find"]}
{"id": "C48", "title": "Broyden updates satisfy the secant equation up to the regulariser", "statement": "After a Broyden update, J_inv*dg - dz equals the previous mismatch times eps/(den) for both variants; without the regulariser the secant equation holds exactly and directions orthogonal to the update are unchanged.", "quantifier": "every J_inv, dg, dz of any dimension", "why_tests_cant": "All matrices.", "anchors": ["torchdyn/numerics/solvers/root.py:BroydenFull", "torchdyn/numerics/solvers/root.py:BroydenBad"]}
{"id": "C49", "title": "Line searches terminate with the documented guarantee", "statement": "naive: returns alpha=0.1^k, with phi(alpha)<=phi(0) or alpha<=1e-6; armijo: terminates, and the returned step either satisfies the Armijo inequality or is the fallback 1e-2.", "quantifier": "every objective", "why_tests_cant": "Termination.", "anchors": ["torchdyn/numerics/solvers/root.py"]}
{"id": "C50", "title": "Wrapped vector fields accept (t,x) and wrapping is idempotent", "statement": "Whatever the signature of the user callable (with or without t, module or lambda), the standardized field called with (t,x) returns the value of the user field; standardizing an already standardized field changes nothing.", "quantifier": "every callable", "why_tests_cant": "All callables.", "anchors": ["torchdyn/core/utils.py", "torchdyn/core/defunc.py"]}
{"id": "C51", "title": "nfe counts calls", "statement": "After any sequence of calls the nfe counter of the field equals the number of calls made.", "quantifier": "every call sequence", "why_tests_cant": "All histories.", "anchors": ["torchdyn/core/defunc.py"]}
{"id": "C52", "title": "Higher-order fields integrate the chain x, x', ...", "statement": "With order k the standardized field maps (x_0,...,x_{k-1}) to (x_1,...,x_{k-1}, f).", "quantifier": "every order, dimension", "why_tests_cant": "All sizes.", "anchors": ["torchdyn/core/defunc.py:DEFunc.higher_order_forward"]}
{"id": "C53", "title": "The integral-loss channel never influences the dynamics", "statement": "With an integral loss under autograd sensitivity, dropping the first column of the solution gives the solution without loss, and the first column is the solver quadrature of the loss along it. This starts at the constructor: a NeuralODE built with integral_loss evaluates that loss on the state without the loss column under 'autograd', and with any other sensitivity the loss does not change the field that the forward pass integrates.", "quantifier": "every loss, field, solver, grid", "why_tests_cant": "Relational.", "anchors": ["torchdyn/core/defunc.py:DEFunc.forward"]}
{"id": "C54", "title": "Data control is fixed to the initial condition", "statement": "During a NeuralODE call every DataControl layer sees the (un-augmented) initial state of that call and not of earlier calls.", "quantifier": "every call history, every nesting of modules", "why_tests_cant": "All histories.", "anchors": ["torchdyn/core/neuralde.py:NeuralODE._prep_integration", "torchdyn/nn/node_layers.py:DataControl"]}
{"id": "C55", "title": "Adjoint state packing is lossless", "statement": "Packing (x, lambda, mu, lambda_t) into one vector and slicing it back as the adjoint does returns the same components for every size.", "quantifier": "every size of state and parameter vectors", "why_tests_cant": "All sizes.", "anchors": ["torchdyn/numerics/sensitivity.py"]}
{"id": "C56", "title": "Adjoint gradients equal back-propagated gradients for linear fields with euler", "statement": "For x'=Ax solved with euler on a grid, the gradient w.r.t. x0 computed by the adjoint solve with euler equals the exact gradient of the discrete solution, for a loss depending on all output points.", "quantifier": "every operator A, grid, cotangents", "why_tests_cant": "All operators, grid lengths.", "anchors": ["torchdyn/numerics/sensitivity.py"]}
{"id": "C57", "title": "save_at is honoured under every sensitivity method", "statement": "ODEProblem called with save_at returns the states at save_at for autograd and adjoint methods alike.", "quantifier": "every save_at, sensitivity", "why_tests_cant": "Relational.", "anchors": ["torchdyn/core/problems.py:ODEProblem.odeint"]}
{"id": "C58", "title": "MultipleShootingProblem passes its settings to the solver", "statement": "maxiter, fine_steps and the parallel solver chosen by the user are the ones used, for every sensitivity method.", "quantifier": "every setting", "why_tests_cant": "All settings.", "anchors": ["torchdyn/core/problems.py:MultipleShootingProblem"]}
{"id": "C59", "title": "HNN conserves its energy", "statement": "The HNN field is orthogonal to the gradient of its energy, hence the energy is constant along every exact solution.", "quantifier": "every differentiable energy, every even dimension, every solution", "why_tests_cant": "All energies.", "anchors": ["torchdyn/models/energy.py:HNN"]}
{"id": "C60", "title": "GNF dissipates its energy", "statement": "Along every exact solution of a GNF the energy is nonincreasing.", "quantifier": "every differentiable energy", "why_tests_cant": "All energies.", "anchors": ["torchdyn/models/energy.py:GNF"]}
{"id": "C61", "title": "CNF propagates minus the divergence", "statement": "The first output column of a CNF is minus the exact divergence of the network field and the rest is the field at x[:,1:], independent of x[:,0].", "quantifier": "every network acting per sample", "why_tests_cant": "All networks.", "anchors": ["torchdyn/models/cnf.py"]}
{"id": "C62", "title": "Hutchinson estimator is unbiased", "statement": "Averaging the Hutchinson estimator over noise with identity second moment gives the exact trace.", "quantifier": "every Jacobian, every finite noise distribution with identity second moment", "why_tests_cant": "All distributions.", "anchors": ["torchdyn/models/cnf.py:hutch_trace"]}
{"id": "C63", "title": "Augmenter, DepthCat and DataControl only add columns", "statement": "They return the input unchanged in its own columns plus the announced extra columns (zeros or augment_func(x); the time; the control).", "quantifier": "every batch and width", "why_tests_cant": "All shapes.", "anchors": ["torchdyn/nn/node_layers.py"]}
{"id": "C64", "title": "Galerkin layers evaluate the basis expansion", "statement": "The weights of a GalLinear layer at depth t are sum_i sum_d basis_i(d,t)*coeffs[.,d,i]; freshly initialised layers output zero; the layer is affine in its input.", "quantifier": "every degree, number of eigenfunctions, sizes", "why_tests_cant": "All sizes.", "anchors": ["torchdyn/nn/galerkin.py"]}
{"id": "C65", "title": "The Chebychev basis consists of Chebyshev polynomials", "statement": "Entry k of the Chebychev expansion at s is T_k(s), and there is one entry per degree.", "quantifier": "every degree and s", "why_tests_cant": "All degrees.", "anchors": ["torchdyn/nn/galerkin.py:Chebychev"]}
{"id": "C66", "title": "Toy datasets have the documented sizes, labels and geometry", "statement": "generate_moons returns n_samples points on two half circles with floor(n/2) and ceil(n/2) labels; generate_spirals returns 2n with n of each label; gaussians return n per class.", "quantifier": "every n_samples, noise realisation", "why_tests_cant": "All sizes.", "anchors": ["torchdyn/datasets/static_datasets.py"]}
{"id": "C67", "title": "Concentric spheres", "statement": "randnsphere returns a point at distance radius from the origin; generate_concentric_spheres works for every n_samples.", "quantifier": "every dimension, radius, sample, n_samples", "why_tests_cant": "All sizes.", "anchors": ["torchdyn/datasets/static_datasets.py"]}
{"id": "C68", "title": "Solver names", "statement": "Every documented alias resolves to its solver and every other name raises KeyError.", "quantifier": "all strings", "why_tests_cant": "Infinite set of strings.", "anchors": ["torchdyn/numerics/solvers/ode.py:SOLVER_DICT"]}
{"id": "C69", "title": "odeint_symplectic supports adaptive alf", "statement": "odeint_symplectic with an adaptive leapfrog solver returns a solution.", "quantifier": "every field", "why_tests_cant": "All inputs.", "anchors": ["torchdyn/numerics/odeint.py:odeint_symplectic"]}
{"id": "C70", "title": "HybridNeuralDE is causal", "statement": "Output t of an ODE-RNN depends only on the sequence up to t; last_output returns the last entry; reverse=True processes the reversed sequence.", "quantifier": "every sequence, jump, flow", "why_tests_cant": "All sequences.", "anchors": ["torchdyn/models/hybrid.py"]}
{"id": "C71", "title": "Dictionary states are stacked per key", "statement": "For dictionary states the output maps every key to the stack over time of the values under that key.", "quantifier": "every dictionary and grid", "why_tests_cant": "All dictionaries.", "anchors": ["torchdyn/numerics/odeint.py:_fixed_odeint"]}
{"id": "C72", "title": "Seminorm ignores the excluded components", "statement": "With seminorm=(True,d) the accept/reject decisions and step sizes depend only on the first d components of the error and states; with (False,_) on all of them.", "quantifier": "every state, error vector", "why_tests_cant": "Relational.", "anchors": ["torchdyn/numerics/odeint.py:_adaptive_odeint"]}
{"id": "C73", "title": "root_find solves affine equations with its default settings", "statement": "For an affine residual g with invertible Jacobian, root_find with the default arguments returns a point whose residual satisfies the tolerances; without line search the residual contracts by exactly (1-alpha) per iteration.", "quantifier": "all affine residuals of any dimension and batch size, all starting points and step lengths", "why_tests_cant": "needs every affine problem and starting point, and exact residuals after arbitrarily many iterations", "anchors": ["torchdyn/numerics/solvers/root.py:root_find", "torchdyn/numerics/solvers/root.py:LineSearcher.phi"]}
{"id": "C74", "title": "Adjoint gradients with respect to integration times", "statement": "The gradient of a loss of the final state with respect to t_span returned by the adjoint method is the derivative of the loss with respect to the start and end times: -<lambda(t0), f(t0,x0)> and <g, f(T, x_T)>.", "quantifier": "every field, grid and cotangent", "why_tests_cant": "The t_span gradient is a silent by-product; a wrong sign is invisible unless compared with an exact derivative for every field.", "anchors": ["torchdyn/numerics/sensitivity.py:_gather_odefunc_adjoint"]}
{"id": "C75", "title": "The sensitivity does not change the forward values", "statement": "For the same field, state, grid, solver and tolerances, ODEProblem returns the same times and states whatever the sensitivity algorithm (with no save_at and no args).", "quantifier": "every field, state, grid, fixed-step and adaptive solver, all three sensitivities", "why_tests_cant": "Relational over all solvers and grids; tests use a fixed-step solver or compare only final values.", "anchors": ["torchdyn/core/problems.py:ODEProblem.odeint", "torchdyn/numerics/sensitivity.py:_gather_odefunc_interp_adjoint"]}
{"id": "C76", "title": "LNN satisfies the Euler-Lagrange equations", "statement": "Where the mass matrix of the Lagrangian is invertible, exact solutions of the LNN field satisfy d/dt (dL/dqdot) = dL/dq with qdot the velocity, so the energy qdot.dL/dqdot - L is conserved.", "quantifier": "every twice continuously differentiable Lagrangian with invertible mass matrix, every dimension, every solution", "why_tests_cant": "All Lagrangians and solutions; a transposed Hessian block is invisible on separable Lagrangians.", "anchors": ["torchdyn/models/energy.py:LNN"]}
{"id": "C77", "title": "ConservativeLinearSNF conserves its energy", "statement": "The field of ConservativeLinearSNF is orthogonal to the gradient of its energy.", "quantifier": "every energy and interconnection network", "why_tests_cant": "All energies.", "anchors": ["torchdyn/models/energy.py:ConservativeLinearSNF"]}
{"id": "C78", "title": "Galerkin layers use the degrees 0, 1, ..., deg-1", "statement": "The eigenbasis expansions of a Galerkin layer with degree deg are evaluated at the integer degrees 0, ..., deg-1 (powers of t, harmonics cos(k t), sin(k t)).", "quantifier": "every degree", "why_tests_cant": "All degrees; a test at degree 1 or 2 cannot tell.", "anchors": ["torchdyn/nn/galerkin.py:GalLayer.calculate_weights"]}
{"id": "C79", "title": "Every documented option of Galerkin layers works", "statement": "GalLinear with bias=False and with adaptive radial basis functions computes its forward pass.", "quantifier": "every degree, sizes, inputs", "why_tests_cant": "All configurations.", "anchors": ["torchdyn/nn/galerkin.py:GalLinear", "torchdyn/nn/galerkin.py:GaussianRBF", "torchdyn/nn/galerkin.py:VanillaRBF", "torchdyn/nn/galerkin.py:MultiquadRBF"]}
{"id": "C80", "title": "odeint_hybrid locates events up to event_tol", "statement": "For events that stay active once they become active along the flow, the state to which a jump is applied lies at most event_tol after a reported-flow state at which no event was active, and the search never fails.", "quantifier": "every field, callbacks, tolerances, event times", "why_tests_cant": "Ranges over all positions of the event inside a step and all ratios of step size to event_tol; failures need particular binary expansions.", "anchors": ["torchdyn/numerics/odeint.py:odeint_hybrid"]}
{"id": "C81", "title": "One step of dopri5 and tsit5 has the advertised order on smooth nonlinear fields", "statement": "Started on the exact solution of x' = f(t,x), one step of length h of the dopri5 solver returns a state within C h^6 of the exact solution at t+h and an error estimate of size at most C h^5, with one constant C for all start times of a compact interval, for every field that is five times continuously differentiable in time and state (in any normed space). For tsit5 on autonomous fields the same holds up to 1e-80 * D h, the rounding of its published decimals.", "quantifier": "for all C^5 fields, all solutions on compact intervals, all start times and all sufficiently small steps", "why_tests_cant": "A test measures the error for chosen fields and step sizes; the order is an asymptotic statement over all smooth nonlinear fields, and an order condition violated only for a special tree is invisible on linear or separable test problems.", "anchors": ["torchdyn/numerics/solvers/ode.py:DormandPrince45.step", "torchdyn/numerics/solvers/ode.py:Tsitouras45.step", "torchdyn/numerics/solvers/_constants.py:construct_dopri5", "torchdyn/numerics/solvers/_constants.py:construct_tsit5"]}
{"id": "C82", "title": "Fixed-step integration converges with the order of the solver", "statement": "odeint with solver 'euler', 'midpoint' or 'rk4' on a grid with gaps at most h returns states within C h^p of the exact solution at every grid point, p = 1, 2, 4 being the order of the solver, for every smooth vector field that is Lipschitz in the state. (For rk4 this is false on time-dependent fields: there it is of first order only.)", "quantifier": "for all smooth Lipschitz fields, all exact solutions, all increasing grids with gaps at most h, all sufficiently small h", "why_tests_cant": "Convergence with an order is a statement about the limit of grids getting finer, uniformly over grids that need not be uniform, and for all fields; tests see finitely many grids.", "anchors": ["torchdyn/numerics/odeint.py:odeint", "torchdyn/numerics/odeint.py:_fixed_odeint", "torchdyn/numerics/solvers/ode.py:Euler.step", "torchdyn/numerics/solvers/ode.py:Midpoint.step", "torchdyn/numerics/solvers/ode.py:RungeKutta4.step"]}
{"id": "C83", "title": "The adjoint backward pass computes the gradient with respect to initial state and parameters", "statement": "For a differentiable field f(theta, t, x), losses on all output points and an integral loss, the backward pass of the 'adjoint' sensitivity returns the derivative of the total loss with respect to the initial state and the parameters, provided its own solves are exact: lambda u(t0) + mu w equals the change of the loss along the first variation u of the solution in the parameter direction w.", "quantifier": "for all nonlinear time-dependent fields with continuous derivative, all solutions, all increasing grids, all losses, all directions in initial state and parameter space", "why_tests_cant": "Gradient checks compare finitely many directions on chosen fields with finite differences, up to discretisation and rounding errors that can hide sign or jump errors; the claim is an identity for all fields and losses.", "anchors": ["torchdyn/numerics/sensitivity.py:_gather_odefunc_adjoint"]}
{"id": "C84", "title": "During every evaluation the time-aware submodules hold the current time", "statement": "Whenever a DEFunc (the field inside a NeuralODE) is evaluated at time t, every submodule of the user's network that has an attribute 't' (DepthCat, Galerkin layers, hypernetwork layers) holds exactly t while the network runs and after the call, whatever it held before, through any nesting of wrappers, for every order, with or without integral loss, and even if the network raises; nothing else about the submodules changes.", "quantifier": "for all fields, all nestings of wrappers, all lists of submodules and values they held, all times, states, arguments and orders", "why_tests_cant": "A test evaluates a network at chosen times; a layer that silently keeps a stale time gives plausible outputs. The claim is about every wrapper stack and every evaluation, including raising ones.", "anchors": ["torchdyn/core/defunc.py:DEFunc.forward", "torchdyn/core/defunc.py:DEFuncBase.forward"]}
{"id": "C85", "title": "odeint_symplectic on a decreasing grid integrates backwards in time", "statement": "odeint_symplectic on a decreasing time grid returns the solution of the same differential equation backwards in time: integrating forwards and then backwards with the reversible leapfrog solver returns to the initial state, and an adaptive solver that is exact on the field ends at the exact state.", "quantifier": "for all fields, states, strictly monotone grids with separated points, tolerances", "why_tests_cant": "Retracing is an identity over all fields and grids; tests on one field can pass by symmetry (e.g. zero velocity) or within loose tolerances.", "anchors": ["torchdyn/numerics/odeint.py:odeint_symplectic", "torchdyn/numerics/solvers/ode.py:AsynchronousLeapfrog.step"]}
{"id": "C86", "title": "Adaptive integrations converge with fifth order in the largest accepted step", "statement": "For a vector field that is five times continuously differentiable (no Lipschitz or growth condition: the solution may blow up after the interval), odeint with dopri5 (no interpolator) returns, and every returned state is within C*h^5 of the exact solution, where h bounds the gaps between the returned times (accepted steps with return_all_eval, requested times otherwise). C does not depend on tolerances or grid. Same for tsit5 on autonomous Lipschitz fields up to the rounding of its decimals; same on decreasing grids.", "quantifier": "every smooth f, every exact solution, every grid, every atol, rtol", "why_tests_cant": "A bound for all fields and all step histories; tests compare a few problems at a few tolerances.", "anchors": ["torchdyn/numerics/odeint.py:_adaptive_odeint", "torchdyn/numerics/solvers/ode.py:DormandPrince45", "torchdyn/numerics/solvers/ode.py:Tsitouras45"]}
{"id": "C87", "title": "Dense output of dopri5 is accurate to fourth order", "statement": "For a four times continuously differentiable field, the fourth order interpolator evaluated anywhere inside an accepted dopri5 step of size h starting on the solution is within C*h^5 (plus the rounding of the printed weights, relative 1e-16) of the exact solution; for whole integrations of five times continuously differentiable fields with interpolator='4th', every returned state is within C*h^5 of the solution if the accepted steps are at most h.", "quantifier": "every smooth field, every step, every point inside the step, every grid and tolerance", "why_tests_cant": "The weights of the midpoint are seven decimals; that they give fourth order on every nonlinear field cannot be tested.", "anchors": ["torchdyn/numerics/interpolators.py:FourthOrder", "torchdyn/numerics/solvers/_constants.py:construct_4th", "torchdyn/numerics/odeint.py:_adaptive_odeint"]}
{"id": "C88", "title": "Parallel implicit Euler solves the implicit Euler equations", "statement": "When odeint_mshooting with solver 'ieuler' (ParallelImplicitEuler) drives its residual to zero, the returned rows are the sequential implicit Euler states of the initial condition along t_span; the system has a unique solution when step size times Lipschitz constant is below one; rows with residual r are within k(sqrt r + L M H^2)/(1-HL)^k of the exact solution; on dissipative fields no state is larger than the initial one. For time-dependent fields the equations of the field frozen at time 0 are solved instead.", "quantifier": "all fields, dimensions, grids, optimisers and shooting parameters", "why_tests_cant": "Holds for every field, grid and optimiser outcome; tests see single runs of LBFGS on one field.", "anchors": ["torchdyn/numerics/solvers/ode.py:284-317", "torchdyn/numerics/odeint.py:153-179", "torchdyn/numerics/odeint.py:448-468"]}
{"id": "C89", "title": "NeuralODE.forward and trajectory integrate the user's field", "statement": "NeuralODE(vf, ...).forward(x, t_span, save_at, args) returns what odeint returns for the user's field with the same solver, tolerances and interpolator, on [0, 1] when t_span is omitted; earlier calls have no influence; trajectory returns the states of forward; solver_adjoint accepts names and solver objects.", "quantifier": "all user modules (with time-aware and data-control layers), solvers, grids, tolerances, batches", "why_tests_cant": "Equality of results, exceptions and non-termination for all fields and solver settings.", "anchors": ["torchdyn/core/neuralde.py:96-143", "torchdyn/core/problems.py:56-75", "torchdyn/core/problems.py:137-159"]}
{"id": "C90", "title": "NeuralSDE integrates the user's SDE", "statement": "NeuralSDE(drift, diffusion, ...).forward(x, t_span) returns what sdeint returns for the user's drift and diffusion with the constructor's settings; with zero diffusion it coincides with Euler integration of the drift; trajectory returns the solution on t_span.", "quantifier": "all drifts, diffusions, Brownian paths, solvers, grids", "why_tests_cant": "Holds for all drifts, diffusions and Brownian paths; error behaviour of the defaults for all inputs.", "anchors": ["torchdyn/core/neuralde.py:155-294", "torchdyn/core/problems.py:263-321", "torchdyn/numerics/sdeint.py:33-116"]}
{"id": "C91", "title": "Adaptive integration commutes with reordering and repeating samples", "statement": "Reordering the samples of a batch, or repeating every sample the same number of times, gives the reordered or repeated results of adaptive odeint (dopri5, tsit5): same accepted steps, same times, same exceptions, same number of iterations.", "quantifier": "all fields acting sample-wise, batches, permutations, numbers of copies, grids in both directions, tolerances, interpolation, return_all_eval", "why_tests_cant": "Exact equality of complete runs for every batch and every field; the step size control couples the samples, so finite tests only see particular couplings.", "anchors": ["torchdyn/numerics/odeint.py:29-91", "torchdyn/numerics/odeint.py:326-408", "torchdyn/numerics/utils.py:19-53"]}
{"id": "C92", "title": "Integration does not depend on the origin of time", "statement": "Integrating f(t - c, x) over t_span + c gives the states of f(t, x) over t_span, at the times moved by c, with the same steps.", "quantifier": "all fields, shifts, initial states, grids in both directions, solvers, tolerances", "why_tests_cant": "Equality of complete runs for every field, grid and shift.", "anchors": ["torchdyn/numerics/odeint.py:29-91", "torchdyn/numerics/odeint.py:326-445", "torchdyn/numerics/utils.py:19-53"]}
{"id": "C93", "title": "Linear invariants are conserved exactly", "statement": "If a linear map vanishes on all values of the field (conserved mass, charge, ...), every state returned by odeint has the value of that map at the initial state: at requested, intermediate and interpolated times, for fixed and adaptive solvers.", "quantifier": "all fields, linear maps, initial states, grids in both directions, tolerances, seminorms, save_at, interpolation", "why_tests_cant": "Conservation at every returned point for every field, grid and tolerance.", "anchors": ["torchdyn/numerics/odeint.py:29-91", "torchdyn/numerics/odeint.py:326-445", "torchdyn/numerics/interpolators.py:29-63"]}
{"id": "C94", "title": "The bundled systems: symmetry, boundedness, termination", "statement": "Integrating `Lorenz` adaptively from initial states rotated by a half turn about the third axis gives the rotated result, and `VanDerPol` from opposite states the opposite result, exactly; `VanDerPol.nfe` grows by the number of stages per interval; every solution of `Lorenz` is drawn exponentially into a fixed ellipsoid; adaptive `odeint` returns on `ODEProblem2/3`, `SineSystem`, `LTISystem`, the Fourier systems and the `MatMul` systems whatever their random parameters; the Fourier systems on a vector of times return row by row their values at the single times and do not depend on the state.", "quantifier": "all batches, grids, tolerances, settings, random parameters and weights; both time directions for the symmetries", "why_tests_cant": "The parameters are random and the integrations adaptive: a test sees a few runs; exact symmetry and termination quantify over all of them.", "anchors": ["torchdyn/numerics/systems.py", "torchdyn/numerics/odeint.py"]}
{"id": "C95", "title": "GalConv2d is a depth-dependent convolution", "statement": "`GalConv2d` convolves the data channels with the kernel and bias that the Galerkin expansion gives at the depth stored in the last channel; it commutes with translations (stride one, no padding), outputs zero when freshly initialised, ignores half of its coefficients for expansions with one function, and raises for `bias=False`, empty batches and kernels larger than the image.", "quantifier": "every number of channels, kernel size, image size, stride, padding, expansion and coefficients", "why_tests_cant": "Index arithmetic of the flattened weights for all sizes; equivariance over all images.", "anchors": ["torchdyn/nn/galerkin.py"]}
{"id": "C96", "title": "ToyDataset.generate returns n_samples labelled samples for every known name", "statement": "`ToyDataset().generate(n, name, **kwargs)` returns `n` points and `n` labels for each documented name, forwards the keyword arguments of the generator, and raises for unknown names and undeclared keywords.", "quantifier": "every n, name, keyword arguments and random draws", "why_tests_cant": "Quantifies over all names, keyword combinations and draws.", "anchors": ["torchdyn/datasets/static_datasets.py"]}
{"id": "C97", "title": "The CNF column is the change of log-density of the flow", "statement": "Along an exact solution of the CNF equation with the exact trace, column 0 changes by minus the logarithm of the determinant of the Jacobian of the flow map of the network; hence p(flow(x)) * exp(-column0) is the transported density: it integrates over any measurable set of data to the mass of its image, and it is normalised whenever p is.", "quantifier": "every continuously differentiable network acting per sample (with a Lipschitz constant for global existence), every dimension, time span, data set and base density", "why_tests_cant": "An identity between an ODE solution and a determinant of a flow derivative, integrated over all data.", "anchors": ["torchdyn/models/cnf.py:55-70", "torchdyn/models/cnf.py:18-27"]}
{"id": "C98", "title": "Hypersolver accuracy is governed by the hypernet error", "statement": "odeint with HyperEuler, HyperMidpoint or HyperRungeKutta4 is accurate to delta*h^p (p the order of the base solver) when the hypernet approximates the scaled residual of the base solver within delta along the solution; HyperEuler with the exact leading residual is of second order; the same hypernet serves for increasing and decreasing grids.", "quantifier": "every field and hypernet that are Lipschitz in the state, or continuously differentiable without Lipschitz constants (then for residual errors small enough to stay near the solution); every increasing grid and every exact solution", "why_tests_cant": "Error bounds over all grids and fields with constants independent of the grid.", "anchors": ["torchdyn/numerics/solvers/hyper.py", "torchdyn/numerics/odeint.py"]}
{"id": "C99", "title": "ieuler is unconditionally contractive and accurate on stiff problems", "statement": "On fields with a one-sided Lipschitz condition the equation of an ieuler step has exactly one solution for every step size, every stationary point of the residual that LBFGS minimises is that solution, two integrations contract by 1/(1+c*dt) per step on every increasing grid, and the error is at most (t-t0)*(M1+M2)*h plus the accumulated tolerance, with constants independent of the Lipschitz constant of the field.", "quantifier": "every differentiable field with a one-sided Lipschitz constant, every increasing grid and step size, every optimiser that reaches its tolerance", "why_tests_cant": "Stiffness-independent bounds over all fields and grids.", "anchors": ["torchdyn/numerics/solvers/ode.py:180-205"]}
{"id": "C100", "title": "sdeint with additive noise converges along every path", "statement": "For dx = f(t,x) dt + σ dW with constant σ and a drift that is continuous and Lipschitz in x, sdeint with any of its four working solvers approximates, for each continuous path W separately, the solution along W: every tolerance is met at all grid points by all grids that are fine enough. If W is Hölder continuous with exponent a and f Lipschitz in t and x, the error is at most C h^a where h bounds the gaps.", "quantifier": "all dimensions, drifts, noise amplitudes, continuous paths, initial states, increasing grids, accepted solver names and type labels", "why_tests_cant": "A test draws a few Brownian paths and a few grids and compares with a fine solution that is itself numerical; convergence for every path and every family of grids is a limit statement.", "anchors": ["torchdyn/numerics/sdeint.py:33-116", "torchdyn/numerics/solvers/sde.py:19-108"]}
{"id": "C101", "title": "root_find converges locally on nonlinear residuals", "statement": "Let the residual of a sample depend on that sample only and have a root with invertible derivative, the derivative being Lipschitz at the root. Then there is a neighbourhood of the root from which root_find(method='broyden' or 'broyden_fast', search_method='none'), with the inverse Jacobian at the starting point, reduces the distance to the root by a factor of at least 1 - alpha/2 in every iteration, whatever the other samples of the batch do.", "quantifier": "all dimensions, batch sizes, residuals, regular roots, step lengths alpha in (0,1], tolerances and iteration limits, starting points in the neighbourhood", "why_tests_cant": "Local convergence of a quasi-Newton method depends on how the approximate inverse Jacobian deteriorates over arbitrarily many iterations; tests see a few residuals and starting points.", "anchors": ["torchdyn/numerics/solvers/root.py:31-37", "torchdyn/numerics/solvers/root.py:51-57", "torchdyn/numerics/solvers/root.py:77-82", "torchdyn/numerics/solvers/root.py:259-305"]}
{"id": "C102", "title": "euler on a GNF is gradient descent", "statement": "If the gradient of the total energy of a GNF has Lipschitz constant L, then odeint(GNF, x, t_span, solver='euler') on a grid with gaps h, L h <= 2, returns states of nonincreasing energy; each gap decreases it by at least h (1 - L h/2) ||F(x)||^2. If the energy is convex and L h <= 1, the energy at a returned time t exceeds that of any state z by at most ||x - z||^2 / (2 (t - t0)).", "quantifier": "all differentiable energies with Lipschitz gradient, batch sizes, widths, initial states, increasing grids that odeint accepts", "why_tests_cant": "The energy inequality has to hold at every state and for every admissible step; tests check a few networks and grids.", "anchors": ["torchdyn/models/energy.py:49-62", "torchdyn/numerics/odeint.py:410-455", "torchdyn/numerics/solvers/ode.py"]}
{"id": "C103", "title": "Adaptive odeint returns a state for every requested time in floating point", "statement": "With time arithmetic rounded to nearest, whenever adaptive odeint returns, the returned times are exactly t_span and there is one state per time.", "quantifier": "every increasing t_span of floating-point numbers, every number of bits, every field, solver, tolerance and sequence of step sizes", "why_tests_cant": "Whether the last step lands exactly on the requested time depends on the last bits of the times and of the step sizes; tests use a few grids, mostly ending at 1.", "anchors": ["torchdyn/numerics/odeint.py:_adaptive_odeint"]}
{"id": "C104", "title": "Fixed-step integration depends stably on the initial state, the field and the arithmetic", "statement": "If the initial states of two calls of odeint differ by d, the vector fields by at most eta, and each step of the second solver is off by at most eps (rounding), then the states returned for the k-th time t differ by at most (d + k eps + (t - t0) eta) exp(L (t - t0)), L the Lipschitz constant of the first field; for euler, midpoint and rk4.", "quantifier": "every normed space, every Lipschitz field and every field near it, every solver near euler, midpoint or rk4, every non-decreasing separated grid of any length, every step size", "why_tests_cant": "Tests compare single runs; a bound on all perturbations, with constants that do not depend on the number or size of the steps beyond k eps, is a statement about all fields and all grids.", "anchors": ["torchdyn/numerics/odeint.py:_fixed_odeint", "torchdyn/numerics/solvers/ode.py:Euler", "torchdyn/numerics/solvers/ode.py:Midpoint", "torchdyn/numerics/solvers/ode.py:RungeKutta4"]}
{"id": "C105", "title": "Log-likelihoods computed by a CNF converge with the order of the solver", "statement": "Integrating the CNF-augmented state (exact trace) with euler, midpoint or rk4 on a grid with gaps at most h, the change of the density column of every sample of the batch differs from minus the log-determinant of the Jacobian of the true flow by at most C h^p, with p = 1, 2, 4.", "quantifier": "every batch size and dimension, every sufficiently smooth network with a flow on the interval (no Lipschitz condition), every interval, every increasing grid of any length, every batch of inputs", "why_tests_cant": "A test compares one density at one step size with a tolerance; the order and the identity of the limit (the log-determinant of the flow's Jacobian) quantify over all networks, grids and step sizes.", "anchors": ["torchdyn/models/cnf.py:CNF.forward", "torchdyn/models/cnf.py:autograd_trace", "torchdyn/numerics/odeint.py:_fixed_odeint"]}
{"id": "C106", "title": "Fixed-step integration converges with its order for smooth fields that are not globally Lipschitz", "statement": "If a sufficiently smooth field has a solution y on [t0, T], then odeint with euler, midpoint or rk4 started within delta of y(t0) on a grid with gaps at most h <= delta returns states within C (h^p + distance of the initial states) of y, p = 1, 2, 4; no global Lipschitz constant is assumed (the field may blow up elsewhere).", "quantifier": "every finite-dimensional state space, every C^p field and every solution on a compact interval, every nearby initial state, every increasing grid of any length", "why_tests_cant": "Order statements quantify over all fields and step sizes; without a Lipschitz constant a numerical state could leave the region where the field is tame, and only a proof excludes that on every grid.", "anchors": ["torchdyn/numerics/odeint.py:_fixed_odeint", "torchdyn/numerics/solvers/ode.py:Euler", "torchdyn/numerics/solvers/ode.py:Midpoint", "torchdyn/numerics/solvers/ode.py:RungeKutta4", "torchdyn/numerics/systems.py"]}
{"id": "C107", "title": "Gradients computed with the numerical adjoint converge to the true gradient with the order of the solvers", "statement": "With sensitivity='adjoint' and the same fixed-step method (euler, midpoint or rk4) in the forward and the backward pass on a grid with gaps at most h, the gradients returned for parameters and initial state differ from the Frechet derivative of terminal loss plus integral loss along the true solution by at most C h^p, p = 1, 2, 4.", "quantifier": "every finite-dimensional state and parameter space, every sufficiently smooth field and losses (no global Lipschitz constant), every interval on which the solutions exist, every increasing grid of any length", "why_tests_cant": "A test compares one gradient with a finite difference within a tolerance; that the backward recomputation of the state, the vector-Jacobian products and the step-by-step solves together converge to the gradient of the continuous problem, and at which rate, is a statement about all fields and grids.", "anchors": ["torchdyn/numerics/sensitivity.py:_gather_odefunc_adjoint", "torchdyn/core/problems.py:ODEProblem", "torchdyn/numerics/odeint.py:_fixed_odeint"]}
{"id": "C108", "title": "One step size serves all trajectories in a bounded region", "statement": "For a sufficiently smooth field and a bound R there are C and delta such that odeint with euler, midpoint or rk4 stays within C (h^p + initial error) of every solution that is bounded by R on its interval, whatever its initial time and state, on every grid with gaps at most h <= delta; p = 1, 2, 4.", "quantifier": "every finite-dimensional state space, every C^p field (no global Lipschitz constant), every bound R, all solutions bounded by R on any subinterval of [t0, T] at once, every nearby initial state, every increasing grid of any length", "why_tests_cant": "A test fixes finitely many initial conditions; a batch, or a restart from the middle of a trajectory, needs the same constants for a continuum of solutions, which only a uniform bound can give.", "anchors": ["torchdyn/numerics/odeint.py:_fixed_odeint", "torchdyn/numerics/solvers/ode.py:Euler", "torchdyn/numerics/solvers/ode.py:Midpoint", "torchdyn/numerics/solvers/ode.py:RungeKutta4"]}
{"id": "C109", "title": "Gradients of losses over all outputs computed with the numerical adjoint converge, uniformly in the number of outputs", "statement": "With sensitivity='adjoint' and the same fixed-step method in both passes, the gradients with respect to parameters and initial state of a weighted sum of losses on every output of odeint plus an integral loss differ from the gradient of the same loss along the true solution by at most C h^p (p = 1 euler, 2 midpoint, 4 rk4); C depends on the total weight and not on how many outputs there are or where they lie.", "quantifier": "every finite-dimensional state and parameter space, every sufficiently smooth field and losses (no global Lipschitz constant), every increasing grid of any length with gaps at most h, all weights with bounded total", "why_tests_cant": "The backward pass restarts a solve at every output and adds the cotangent there; the errors of arbitrarily many restarts and jumps could accumulate, and a test sees one grid.", "anchors": ["torchdyn/numerics/sensitivity.py:_gather_odefunc_adjoint", "torchdyn/core/problems.py:ODEProblem", "torchdyn/numerics/odeint.py:_fixed_odeint"]}
{"id": "C110", "title": "rk4 on time-dependent fields: first order always, fourth order with time as a state", "statement": "odeint with solver 'rk4' on any continuously differentiable field that depends on time converges to the exact solution with first order, uniformly over nearby initial states (the stage times the code uses cannot spoil consistency); gradients computed by the adjoint with rk4 both ways converge with first order too for twice continuously differentiable fields; appending time as a state component (x, s)' = (f(s, x), 1) restores fourth order. First order is all one gets in general.", "quantifier": "all C1 (resp. C2, C4) fields on finite-dimensional spaces, all solutions on [t0,T], all increasing grids of sufficiently small mesh", "why_tests_cant": "The rate and its failure are statements about a limit over all grids and all fields; tests on autonomous fields see order four.", "anchors": ["torchdyn/numerics/solvers/ode.py:97-104", "torchdyn/numerics/odeint.py:411-449"]}
{"id": "C111", "title": "Second-order convergence of the asynchronous leapfrog solver", "statement": "odeint_symplectic with the 'alf' solver, started at a state and the field's value there (or a velocity within h of it), on a twice continuously differentiable field of order 1 and a grid whose gaps lie between h/ρ and h, returns one state per time point within C h² of the exact solution and velocities within C h of its derivative; C depends on the field, the solution and ρ only, not on the grid.", "quantifier": "all C2 fields (no Lipschitz hypothesis), all solutions on [t0,T], all ρ >= 1, all grids of small mesh with gap ratio at most ρ", "why_tests_cant": "A rate is a limit over all grids; the reflection of the velocity damps nothing, so errors of past steps never decay and the bound is not visible from single steps.", "anchors": ["torchdyn/numerics/solvers/ode.py:107-135", "torchdyn/numerics/odeint.py:95-143"]}
{"id": "C112", "title": "The leapfrog solver is unstable on every decaying linear field, at every step size", "statement": "On x' = a x with exact initial velocity and constant gap h, the k-th state returned by odeint_symplectic with 'alf' is exactly ((1+r)²(θ+r)^k - (r-1)²(θ-r)^k)/(4r) times the initial state, θ = a h, r = sqrt(1+θ²). For a < 0 it grows at least like (1+|a|h)^k whatever the step size, while the exact solution decays; shrinking the step delays the growth but never removes it.", "quantifier": "all real a, all h > 0, all initial states, all numbers of steps", "why_tests_cant": "Short runs look accurate (second order); the growing mode starts from a factor of order h^4 and shows only after many steps.", "anchors": ["torchdyn/numerics/solvers/ode.py:122-135", "torchdyn/numerics/odeint.py:95-143"]}
{"id": "C113", "title": "Error of parareal multiple shooting stopped early", "statement": "odeint_mshooting with MSZero, stopped after k = maxiter + 1 iterations, is at node m within γ α^k β^(m-k-1) C(m,k+1) of the sequential fine solution, where γ bounds the error of the initial guess, β is a Lipschitz constant of the coarse map over a segment and α one of the difference between the fine and coarse maps. For a field with Lipschitz constant L, coarse euler, fine rk4 and segments of length Δ <= 1/L, α = 2(exp(2LΔ)-1) and β = exp(2LΔ): each further iteration gains a factor proportional to the segment length.", "quantifier": "all fields, initial guesses, numbers of segments, fine steps and iterations", "why_tests_cant": "The rate is a bound over all guesses, fields and iteration counts; finite termination (C38) says nothing about the error of the nodes not yet reached.", "anchors": ["torchdyn/numerics/solvers/ode.py:222-249", "torchdyn/numerics/odeint.py:153-179"]}
{"id": "C114", "title": "Moments of sdeint over the Brownian paths", "statement": "Averaged over Brownian paths: with solver 'euler' and an affine drift the mean of every returned state equals the result of the same call without noise; for dX = aX dt + bX dW the second moment of the k-th state is the product of (1+a h)^2 + b^2 h over the steps times x0^2; and the mean-square distance of two runs driven by the same path is multiplied per step by at most 1 + h(2μ+M²) + h²L², μ the one-sided Lipschitz constant of the drift, L and M the Lipschitz constants of drift and diffusion. For each of the four solver names the mean of the k-th state of dX = aX dt + bX dW is the product over the steps of 1+ah (euler, milstein_ito), 1+(a+b²/2)h (eulerHeun) and 1+(a+b²/2)h + a b h^(3/2)/2 (milstein_stratonovich: a bias of order h^(3/2) per step from the derivative-free term).", "quantifier": "all probability spaces and paths with independent increments of mean zero and variance h, all increasing grids, dimensions, coefficients and initial states", "why_tests_cant": "Means over paths can only be estimated by sampling, with an error larger than the h^(3/2) bias.", "anchors": ["torchdyn/numerics/solvers/sde.py:19-109", "torchdyn/numerics/sdeint.py:33-116"]}
{"id": "C115", "title": "Arguments of odeint: time spans, solver and interpolator names", "statement": "odeint accepts t_span as a tensor or a list, in either direction. A documented solver name runs the solver of that name; an undocumented solver name raises KeyError, and so does an interpolator name other than '4th' unless the solver is tsit5 (which discards it), always before the field is evaluated. Tensors of fewer than two times raise IndexError first; two-dimensional tensors never integrate. False for lists: decreasing lists of tensors raise TypeError, lists of numbers or of zero-dimensional tensors never work.", "quantifier": "all forms of t_span, all names, solvers, fields and tolerances", "why_tests_cant": "There are unboundedly many names and time spans, and tests pass increasing tensors; that the field is not evaluated before the error is a statement about all fields.", "anchors": ["torchdyn/numerics/odeint.py:29-91", "torchdyn/numerics/interpolators.py:67-73", "torchdyn/numerics/solvers/ode.py:320-336"]}
{"id": "C116", "title": "Strong convergence of sdeint with the Euler-Maruyama solver", "statement": "Run sdeint with solver 'euler' on a time grid and on any refinement of it, along the same Brownian path and with drift and (elementwise) diffusion that are Lipschitz in the state, 1/2-Hölder in time and of at most linear growth. Both runs return, and at every coarse time their mean-square distance is at most C times the longest coarse step, where C depends only on the Lipschitz constant, the horizon and the initial value: strong order 1/2, whatever the two grids.", "quantifier": "all Lipschitz coefficients, dimensions, initial states, grids with steps at most 1 and refinements, all processes with independent centred increments of the right variance", "why_tests_cant": "The claim is about expectations over all paths and about every grid and refinement; tests sample finitely many paths on a few grids.", "anchors": ["torchdyn/numerics/solvers/sde.py:19-35", "torchdyn/numerics/sdeint.py:33-116"]}
{"id": "C117", "title": "Mean-square convergence of sdeint with the Euler-Maruyama solver", "statement": "Run sdeint with solver 'euler' on the uniform grids of spacing h, h/2, h/4, ... along one Brownian path, with Lipschitz coefficients (1/2-Hölder in time, linear growth) and h <= 1. Every run returns, and at each time of the first grid the returned states converge in mean square to a square-integrable random state; the mean-square error of the m-th run is at most C h/2^m with C depending only on the Lipschitz constant, the horizon and the initial value.", "quantifier": "all Lipschitz coefficients, dimensions, initial states, step sizes, horizons and processes with Brownian increments on the dyadic grids (one is constructed)", "why_tests_cant": "A limit over infinitely many grids of expectations over all paths cannot be observed in finitely many runs.", "anchors": ["torchdyn/numerics/solvers/sde.py:19-35", "torchdyn/numerics/sdeint.py:33-116"]}
{"id": "C118", "title": "Arguments of odeint_mshooting: solver and method names, solver objects", "statement": "The names 'mszero', 'zero' and 'parareal' run parareal with coarse method euler and fine method rk4; an MSZero object built with two documented names of fixed-step solvers runs parareal with these. Undocumented names raise KeyError: for the parallel solver before anything else, for its methods in the constructor. Methods given as solver objects are silently dropped by the constructor, and then every call raises AttributeError before the field is evaluated (for ParallelImplicitEuler only if no B0 is given). With an adaptive coarse or fine method (dopri5, tsit5) no call with MSZero returns, nor with an adaptive fine method any with MSBackward. MSForward never integrates.", "quantifier": "all fields (also raising ones), states, grids, guesses, names, method objects, numbers of fine steps and iterations", "why_tests_cant": "There are unboundedly many names, objects and fields; that no call returns is a statement about all of them.", "anchors": ["torchdyn/numerics/odeint.py:153-179", "torchdyn/numerics/solvers/templates.py:67-81", "torchdyn/numerics/solvers/ode.py:211-317"]}
{"id": "C119", "title": "A solver can be written on top of the library's templates", "statement": "A class derived from one of the solver templates that overrides step can be instantiated and passed to odeint, which drives it like a built-in solver of its stepping class; mistakes (no step, no or an unknown stepping class) raise an error.", "quantifier": "every derived class, step method, field, grid and argument", "why_tests_cant": "The step method is arbitrary user code, and the misuse shows as a silent None.", "anchors": ["torchdyn/numerics/solvers/templates.py:DiffEqSolver", "torchdyn/numerics/solvers/templates.py:BaseExplicit", "torchdyn/numerics/solvers/templates.py:BaseImplicit", "torchdyn/numerics/solvers/ode.py:SolverTemplate", "torchdyn/numerics/odeint.py:odeint"]}
{"id": "C120", "title": "Tolerances bound the error of adaptive integration", "statement": "The states returned by odeint with dopri5 or tsit5 are as close to the exact solution as atol and rtol ask for, up to a factor that depends on the field's Lipschitz constant, the interval and the number of steps; the solver notices every feature of the field that moves the solution.", "quantifier": "every field, initial state, grid and pair of tolerances", "why_tests_cant": "A solver sees a field at finitely many points, and the fields that deceive it depend on those points; a test suite cannot range over them, nor over all stiff decay rates for which the estimate is reliable.", "anchors": ["torchdyn/numerics/odeint.py:_adaptive_odeint", "torchdyn/numerics/odeint.py:odeint", "torchdyn/numerics/solvers/ode.py:DormandPrince45", "torchdyn/numerics/solvers/ode.py:Tsitouras45", "torchdyn/numerics/utils.py:hairer_norm", "torchdyn/numerics/utils.py:init_step"]}
{"id": "C121", "title": "Coefficients have the precision of the state", "statement": "The coefficients a solver uses are those of its method rounded to the floating-point type of the state: with the solver given by name to odeint, by name to ODEProblem/NeuralODE or to multiple shooting, or as a solver object, and whatever calls the object was used for before. In particular x' = c is integrated up to rounding in the type of the state.", "quantifier": "all solver names and classes, both types, all histories of calls, constant fields, initial states, grids and tolerances", "why_tests_cant": "The type of the tableau is not observable in the shape or the type of the result; the wrong digits hide below the tolerances of tests, and the object is changed in place by each call.", "anchors": ["torchdyn/numerics/solvers/ode.py:str_to_solver", "torchdyn/numerics/solvers/templates.py:DiffEqSolver.sync_device_dtype", "torchdyn/numerics/solvers/_constants.py", "torchdyn/core/problems.py:ODEProblem.__init__", "torchdyn/numerics/odeint.py:odeint"]}
{"id": "C122", "title": "The backward pass uses the adjoint settings", "statement": "ODEProblem and NeuralODE compute the solution with solver, atol and rtol, and solve the adjoint equation with solver_adjoint (a name or a solver object; by default the solver of the problem), atol_adjoint and rtol_adjoint, leaving the entries of the parameters out of the error norm if and only if seminorm=True, for both adjoint sensitivities.", "quantifier": "all solvers, tolerances, sensitivities and sizes", "why_tests_cant": "The settings of the backward solve show only in the error of gradients; tests compare gradients with one loose tolerance on the defaults.", "anchors": ["torchdyn/core/problems.py:ODEProblem.__init__", "torchdyn/core/problems.py:ODEProblem._autograd_func", "torchdyn/numerics/sensitivity.py:_gather_odefunc_adjoint", "torchdyn/numerics/sensitivity.py:_gather_odefunc_interp_adjoint"]}
{"id": "C123", "title": "Gradients are computed for the parameters of the field and the optimizable parameters", "statement": "The adjoint methods compute gradients for the parameters of the vector field and for the optimizable_params, each receiving its own vector-Jacobian product; frozen parameters and parameters the field does not use do not prevent the others from receiving theirs, and other problems built on the same module have no influence.", "quantifier": "all modules, parameter lists with any sharing and sizes, all histories of problems", "why_tests_cant": "Depends on which tensors are shared, frozen or unused and on what was built on the module before.", "anchors": ["torchdyn/core/problems.py:ODEProblem.__init__", "torchdyn/numerics/sensitivity.py:_gather_odefunc_adjoint"]}
{"id": "C124", "title": "Orders of the SDE solvers on the linear test equation", "statement": "Every SDE solver declares order 1. Run sdeint on dX_i = a_i X_i dt + b_i X_i dW_i (Ito for 'euler' and 'milstein_ito', Stratonovich for 'eulerHeun' and 'milstein_stratonovich') along Brownian increments, on any grid with steps at most H <= 1. The mean-square distance of the returned states to the exact solution is at most C H for all four names and at most C H^2 (strong order 1) for 'milstein_ito' and 'eulerHeun'; the means of 'euler', 'milstein_ito' and 'eulerHeun' are within C H of the exact means. The declared order is not reached by two of them: for a = 0 the mean-square error of 'euler' at time t is at least b^4 x0^2 t h/2 (strong order 1/2 only), and 'milstein_stratonovich' has a bias of a b T^(3/2) exp((a+b^2/2)T) x0/(2 sqrt n) after n steps, so that whenever a b x0 != 0 neither its mean converges with order 1 nor its mean-square error with order 2 in the step: the supporting value of the derivative-free scheme contains the drift.", "quantifier": "all coefficients, dimensions, initial states, horizons, grids (steps at most 1), probability spaces and paths with independent normal increments", "why_tests_cant": "Orders are limits of expectations over all paths as the step goes to zero; a sampling test on a few step sizes cannot tell order 1/2 from order 1 below its sampling error.", "anchors": ["torchdyn/numerics/solvers/sde.py:19-106", "torchdyn/numerics/sdeint.py:33-116"]}
{"id": "C125", "title": "Gradients of the interpolated adjoint", "statement": "With sensitivity='interpolated_adjoint' the backward pass solves the adjoint equation along a spline through the computed states. For smooth fields, losses l_i on all output points and an integral loss, and a fixed-step solver, the returned gradients are within C (delta + eps) of the gradient of sum l_i(x(t_i)) + int g(t, x(t)) dt with respect to parameters and initial state, where delta bounds the distance of states and spline to the true trajectory and eps the relative error of the backward solves; with exact solves along the true trajectory they are equal. With an adaptive solver, which returns all evaluation points, the same holds for losses on the last row, but not for losses on other rows: the loop reads the rows of the gradient by the indices of t_span although they belong to t_sol, and ignores the rest.", "quantifier": "all finite-dimensional states and parameters, C^2 fields and losses, increasing time grids, splines, solves and cotangents", "why_tests_cant": "A derivative is a statement about all perturbations, and the error constant about all splines and solves near the exact ones; a test compares finite differences on one network at one tolerance, usually with a loss on the last point, where the wrong row index does not show.", "anchors": ["torchdyn/numerics/sensitivity.py:103-161"]}
{"id": "C126", "title": "The adjoint tolerances bound the error of the gradients", "statement": "With sensitivity='adjoint' and an adaptive solver_adjoint, every step of the backward solve is accepted only if the error estimate is within atol_adjoint and rtol_adjoint, and the gradients with respect to the initial state and to the parameters become accurate when these tolerances become small.", "quantifier": "for all fields, parameters, losses on the solution, adjoint tolerances and adaptive adjoint solvers", "why_tests_cant": "Which entries of the adjoint vector take part in the error test shows only in the step sizes; a gradient check on a few smooth fields passes although the parameter gradient is never tested. That shrinking the tolerances does not help is a statement about all tolerances.", "anchors": ["torchdyn/numerics/sensitivity.py:55-98", "torchdyn/numerics/odeint.py:365-372", "torchdyn/numerics/utils.py:37-63"]}
{"id": "C127", "title": "root_find(g, z) converges with its own initial Jacobian and returns a tensor of the shape of z", "statement": "root_find called with a residual and a batch of starting points returns a batch of the same shape. For a residual A x + c it moves every sample along the segment to the least-squares solution nearest to its start, leaving exactly (1 - alpha)^n of the distance after n iterations; near a root with invertible derivative it converges. An empty batch or a residual that cannot be called on a single row raises.", "quantifier": "for all matrices (rectangular and singular ones included), right-hand sides, smooth residuals with a regular root, batches, step lengths, both Broyden methods, settings", "why_tests_cant": "The pseudo-inverse decides which of infinitely many solutions is reached; a test has one matrix with one solution. The shape of the result depends on how the residual broadcasts over a single row, which a test with a row-wise residual does not see.", "anchors": ["torchdyn/numerics/solvers/root.py:255-300", "torchdyn/numerics/solvers/root.py:31-37", "torchdyn/numerics/solvers/root.py:77-82"]}
{"id": "C128", "title": "root_find stops by its termination condition", "statement": "If every sample starts close enough to a root with invertible derivative, root_find without line search meets its termination condition after a number of iterations that depends only on the tolerances.", "quantifier": "for all residuals with regular roots, starting points near them, positive tolerances, step lengths in (0, 1], both Broyden methods", "why_tests_cant": "A run that stops on one residual says nothing about the next one; that the condition is never met for roots at the origin is a statement about every number of iterations.", "anchors": ["torchdyn/numerics/solvers/root.py:233-243", "torchdyn/numerics/solvers/root.py:275-298"]}
{"id": "C129", "title": "An input the field does not use has zero derivative in the adjoints", "statement": "With sensitivity='adjoint' or 'interpolated_adjoint', a field that does not use the time, some of its parameters or the state (x' = theta, x' = sin t), or an integral loss that does not use the state, is differentiated as if the unused derivative were zero. Of the code: an unused time, and unused parameters of one element, are treated so. A field that does not use the state raises AttributeError (TypeError with an integral loss, RuntimeError if it uses nothing); an integral loss that does not use the state raises TypeError; unused parameters whose entries are more or fewer than the parameters themselves (one unused weight matrix) raise RuntimeError in the first stage; and an unused parameter without entries can make up for an unused one of two entries, the gradient of a used parameter then being added to an entry of an unused one.", "quantifier": "for all fields, patterns of use, numbers and sizes of parameters, states, cotangents and step sizes", "why_tests_cant": "the tests use fields that use the state and all their parameters; which patterns of use fail, and that all others give the right equation, is a statement about all of them", "anchors": ["torchdyn/numerics/sensitivity.py:57-75", "torchdyn/numerics/sensitivity.py:130-148", "torchdyn/numerics/solvers/ode.py:68-71"]}
{"id": "C130", "title": "Back-propagation gives the gradient of the returned states, and of the solution in the limit", "statement": "With sensitivity='autograd' (the default of ODEProblem) and a fixed-step solver, the gradients of a loss on the returned states with respect to initial state, parameters of the field and parameters of a hypernet are the gradients of what odeint computes, on increasing and decreasing grids; and as the grid is refined they converge to the gradient of the exact solution with the order of the solver, without a Lipschitz constant for the field. True of euler, midpoint, rk4 (its order for autonomous fields) and the hypersolvers. Of the code it is false for ieuler: each step returns a new parameter, so that every row but the first has gradient zero with respect to all inputs, even if the residual is solved exactly.", "quantifier": "for all differentiable fields, inputs, initial states depending on the inputs, grids and spaces of inputs and states", "why_tests_cant": "tests compare two gradients up to a tolerance at a few random points; exactness for all fields and grids, and the limit of refinement, are statements about all of them; ieuler is never differentiated in the tests", "anchors": ["torchdyn/core/problems.py:140-152", "torchdyn/numerics/solvers/ode.py:61-105", "torchdyn/numerics/solvers/ode.py:181-205", "torchdyn/numerics/solvers/hyper.py:1-47", "torchdyn/numerics/odeint.py:411-460"]}
{"id": "C131", "title": "Back-propagation through odeint_hybrid", "statement": "Calling odeint_hybrid inside an autograd graph returns the values, or raises the error, of the call without graph, and the gradients of the returned states are those of what the call computes. The first part is true of dopri5 and tsit5. The second is false: the steps of the bisection that locates an event run under torch.no_grad, so that whenever the bisection advances, the state at the event has derivative zero with respect to every input, whatever field, solver and callbacks; the gradient of all later rows is cut from initial state and parameters, except for what the jump map and later steps use themselves. What autograd does record, for any callbacks and any number of events, is the derivative of the run which makes at all inputs the steps and jumps made at the given ones and in which the states located by the bisections are constants; without events nothing is lost.", "quantifier": "for all fields, callbacks, solvers, tolerances, spans and inputs; the run refuting the second part is concrete", "why_tests_cant": "no test differentiates through odeint_hybrid; that a gradient is silently zero cannot be seen from the values, and that it happens at every event is a statement about all fields and callbacks", "anchors": ["torchdyn/numerics/odeint.py:183-323", "torchdyn/numerics/odeint.py:250-291"]}
{"id": "C132", "title": "Back-propagation through the adaptive solvers", "statement": "Calling odeint with dopri5 or tsit5 (the default of NeuralODE) inside an autograd graph returns the values, or raises the error, of the call without graph. The gradient of a returned row is the gradient of the integration that makes, at all inputs, the steps accepted at the actual inputs: the controller is under no_grad, the times depend on the inputs through the initial step size only. And the tolerances control the error of the gradients. The last part is false: the error test sees the states only; where the field vanishes for the actual parameters every step is accepted with error zero, and the recorded gradient is 1.9 or more for every atol and rtol where the solution has gradient 1.", "quantifier": "for all fields differentiable in inputs, time and state, all inputs, spans (increasing and decreasing), tolerances and states; the refuting run is for all tolerances", "why_tests_cant": "a test compares gradients for one field, where the steps are small enough; what is differentiated when steps depend on the inputs, and that no tolerance helps, are statements about all fields and tolerances", "anchors": ["torchdyn/numerics/odeint.py:54-91", "torchdyn/numerics/odeint.py:326-408", "torchdyn/numerics/utils.py:37-63", "torchdyn/core/problems.py:140-152"]}
{"id": "C133", "title": "Independence of the units of state and time", "statement": "Measuring the state in other units (with atol, which has the unit of the state, converted) or time in other units (with the field converted) gives the same trajectory in the new units. True: dopri5 and tsit5 when all entries are converted by the same factor up to sign, for every grid in both directions, both interpolator settings and all errors; euler, midpoint and rk4 for the unit of time. False: converting one entry only, since atol is one number and no other value of it accepts the same steps; and the unit of time with dopri5, since the step it starts with is 1e-6 in whatever unit where the field vanishes: for all tolerances there is a smooth field for which the two runs differ by more than 60 atol.", "quantifier": "for all fields, states, grids, tolerances, factors; the refutations are for all tolerances", "why_tests_cant": "units range over all positive factors and fields; tests fix one scale", "anchors": ["torchdyn/numerics/utils.py:37-63", "torchdyn/numerics/odeint.py:326-408", "torchdyn/numerics/odeint.py:29-91"]}
{"id": "C134", "title": "Step-size limits of the fixed-step solvers", "statement": "On a field with a linear mode (a complex amplitude pi(x), linear in the state, that the field multiplies by lambda) euler, midpoint and rk4 multiply the amplitude by 1 + h lambda + ... + (h lambda)^p / p! (p = 1, 2, 4) in every step of a grid with gap h. Hence a decaying mode lambda = -a decays exactly if h a < 2 with euler and midpoint, exactly if h a < z* with rk4, 2.785 < z* < 2.786, and grows beyond. An oscillating mode lambda = i omega gains energy in every step for every step size with euler (factor 1 + (h omega)^2) and midpoint (factor 1 + (h omega)^4 / 4); with rk4 it loses energy exactly if (h omega)^2 < 8. In particular a HNN with the energy of the oscillator integrated by euler multiplies its energy by 1 + h^2 in each step.", "quantifier": "for all state spaces, fields with a mode, initial states, grids with constant gap of any length, step sizes and rates", "why_tests_cant": "limits are statements on all step sizes and all numbers of steps; a test sees one step size on one side of the limit", "anchors": ["torchdyn/numerics/solvers/ode.py:61-106", "torchdyn/numerics/odeint.py:411-443", "torchdyn/models/energy.py:65-80"]}
{"id": "C135", "title": "SDE solvers integrate every noise type they declare", "statement": "sdeint integrates SDEs of each of the noise types 'general', 'diagonal', 'scalar' and 'additive', which all SDE solvers declare to support. True for diagonal noise: when drift, diffusion and Brownian motion have the shape of the state, every solver name, grid and save_at gives tensors of this shape with the entries of the elementwise schemes, or the same error. False for the other three, whose diffusion has one axis more than the state: g * bm is an elementwise product, the step raises or returns a state with an additional axis, and sdeint raises for every solver, drift, Brownian motion, size and grid.", "quantifier": "for all shapes, drifts, diffusions with an additional axis, Brownian motions, solver names and grids of at least two points", "why_tests_cant": "tests use diagonal noise only; that no sizes and no grid work for the other types is a statement about all of them (broadcasting makes some sizes not raise in the step)", "anchors": ["torchdyn/numerics/solvers/sde.py:8-108", "torchdyn/numerics/sdeint.py:33-116"]}
{"id": "C136", "title": "Galerkin layers train the parameters they expose", "statement": "For every eigenbasis expansion, the gradient that autograd records for the weights of a Galerkin layer is their derivative with respect to the coefficients, to `dilation` and `shift` (documented as optimised when the flags are set) and to the depth. Fourier, Polynomial (positive argument) and the radial basis functions (away from their center) meet this. Chebychev does not: its basis is copied out of the graph by `torch.tensor`, so dilation, shift and depth never receive a gradient, for every degree of two or more and every argument; only the coefficients do. In a freshly initialised layer of any expansion only the coefficients receive a gradient.", "quantifier": "for all degrees, numbers of weights, coefficients, dilations, shifts and depths, and all differentiable paths through them", "why_tests_cant": "the forward values are right; a test would have to compare gradients of every expansion at every argument with the true derivative", "anchors": ["torchdyn/nn/galerkin.py:40-161", "torchdyn/nn/galerkin.py:166-189"]}
{"id": "C137", "title": "Gradients of a data-controlled Neural ODE", "statement": "With `sensitivity='autograd'` the gradient of the states returned by a `NeuralODE` whose field contains a `DataControl` layer is the derivative of these states with respect to the input and the parameters of layers before it. This is false: the control is detached from the graph, so the recorded derivative is that of the states with the control held fixed (proved for euler, midpoint and rk4); for the field `x' = u` it is `1` instead of `1 + (t1 - t0)`.", "quantifier": "for all differentiable fields of parameters, time, state and control, all initial states, grids and column selections", "why_tests_cant": "the forward pass is right and gradients are non-zero; only the exact derivative over all fields tells the two apart", "anchors": ["torchdyn/core/neuralde.py:96-136", "torchdyn/nn/node_layers.py:74-82"]}
{"id": "C138", "title": "The bundled systems work as vector fields of odeint, ODEProblem and NeuralODE", "statement": "Each system of torchdyn.numerics.systems (Lorenz, VanDerPol, ODEProblem2-4, SineSystem, LTISystem, the Fourier systems, MatMulSystem, MatMulBoundedSystem) can be handed to odeint, ODEProblem and NeuralODE, and the three integrate the same field: what a vector field is does not depend on the name of its time parameter.", "quantifier": "all twelve systems and whatever they compute, all states, grids, tolerances, save_at, sensitivity methods and Runge-Kutta solvers; for the name of the parameter, all callables and modules", "why_tests_cant": "a test runs one system through one entry point; that no call at all can return for ten of the systems, and that the reason is the parameter name alone, is a statement about all calls", "anchors": ["torchdyn/numerics/systems.py:24-240", "torchdyn/core/utils.py:19-36", "torchdyn/core/defunc.py:28-35", "torchdyn/core/problems.py:77", "torchdyn/core/neuralde.py:72-94"]}
{"id": "C139", "title": "Shapes of fields and states in odeint", "statement": "With the fixed-step solvers, a field whose values have a shape that can be expanded to the shape of the state is integrated as the expanded field; a field of any other shape raises; and the states returned have the shape of the initial state. With `save_at` not containing the initial time the last part fails: for a state of shape (n, 1) the field x[..., 0] gives a matrix (n, n) that is returned.", "quantifier": "all shapes, entries, fields, grids in both directions, the methods euler, midpoint, rk4; for the expansion also all save_at", "why_tests_cant": "tests use fields of the shape of the state; which shapes are silently expanded, which raise and which corrupt the result is a statement about all shapes and all grids", "anchors": ["torchdyn/numerics/solvers/ode.py:60-104", "torchdyn/numerics/odeint.py:54-91", "torchdyn/numerics/odeint.py:411-445"]}
{"id": "C140", "title": "Types and axes of state and grid in odeint", "statement": "`sync_device_dtype` promises that `x`, `t_span` and the solver's tensors have compatible types. A field that maps states of the type of `x` to values of that type (and may raise on states of another type, as a network does) is integrated as without types: `odeint` returns the same times and the same states, of the type of `x`, whatever the type of `t_span`, and also when `x` is zero-dimensional. True of the fixed-step solvers for all grids and states with an axis, and of dopri5 and tsit5 when the type of the grid is not wider than that of the state. False of dopri5 and tsit5 with a float64 grid and a float32 state (the state becomes float64 inside the step and the network raises), and of zero-dimensional states (the step adds an axis and torch.stack raises). A field whose values are float64 whatever the type of the state makes the fixed-step solvers return float64 states, the initial one included.", "quantifier": "all fields, states, grids in both directions, tolerances, numbers of steps, interpolation on and off, float32 and float64 for state and grid, the solvers euler, midpoint, rk4, dopri5, tsit5", "why_tests_cant": "tests make grids with torch.linspace in the default type; type promotion depends on which of the step-size branches (clamped to a checkpoint or to the end, adapted) was taken in each iteration, so only an invariant of the loop settles it for all runs", "anchors": ["torchdyn/numerics/solvers/templates.py:23-40", "torchdyn/numerics/odeint.py:326-408", "torchdyn/numerics/odeint.py:411-445", "torchdyn/numerics/solvers/ode.py:60-180", "torchdyn/numerics/utils.py:37-63"]}
{"id": "C141", "title": "Gradients of the interpolated adjoint converge with the order of the solver, up to two", "statement": "With sensitivity='interpolated_adjoint' and the same fixed-step method in both passes, where the backward pass reads the states from the natural cubic spline through the outputs of the forward pass, the gradients with respect to parameters and initial state of a weighted sum of losses on every output plus an integral loss differ from the gradient of the same loss along the true solution by at most C h^p (p = 1 euler, 2 midpoint); C depends on the total weight and not on how many outputs there are or where they lie.", "quantifier": "every finite-dimensional state and parameter space, every sufficiently smooth field and losses (no global Lipschitz constant), every increasing grid of any length with gaps at most h (no bound on the ratio of gaps), all weights with bounded total", "why_tests_cant": "A test compares gradients on a few fields and grids and cannot tell a wrong order from a bad constant, nor cover non-uniform grids of every length; the error of the spline, of the forward pass and of the backward pass act together.", "anchors": ["torchdyn/numerics/sensitivity.py:103-161", "torchdyn/numerics/odeint.py:411-446"]}
{"id": "C142", "title": "odeint_hybrid finishes on systems whose jumps are separated", "statement": "A call of `odeint_hybrid` on a system whose solution makes finitely many jumps in the time span returns (or raises) after finitely many iterations, and `j_span` protects against systems that jump without end. True of bounded fields with atol > 0 and persistent events when no event fires; when the jumps consume a resource; and when after each jump nothing is active for a time longer than event_tol and the span is at most 4096 event_tol. False when a callback stays active after its jump, and when the next event follows its jump within event_tol: the bisection then places it at the time of the jump, the clock stops and the loop jumps forever, whatever event_tol > 0 and j_span >= 1.", "quantifier": "every bounded field, every initial state, every non-decreasing t_span, every number of callbacks, all tolerances with atol > 0, all j_span, both priorities, every seminorm selection, dopri5 and tsit5", "why_tests_cant": "A test runs a given system for a given time; that a loop ends for all systems of a class, or never ends, is not observable by running it.", "anchors": ["torchdyn/numerics/odeint.py:183-324"]}
{"id": "C143", "title": "odeint_hybrid jumps only near an event", "statement": "Every jump that odeint_hybrid performs happens at a recorded point (the end of the previous piece of the solution, or a point at which no callback is active) within event_tol in time of a point at which the callback that jumps is the first active one, and the two states differ by a constant times event_tol times the bound of the vector field. In particular the call does not jump when the solution stays far from the guard.", "quantifier": "all vector fields, states, callbacks, tolerances, evaluation times, priorities and numbers of iterations", "why_tests_cant": "Event tests use smooth, non-stiff systems with a single guard whose crossing is real; a spurious jump needs a trial step that the error test would reject, and only a proof covers every trial step of every run.", "anchors": ["torchdyn/numerics/odeint.py:229-321"]}
{"id": "C144", "title": "The logger of root_find describes the returned point", "statement": "root_find with a Broyden method returns (z, logger). With verbose=True logger.data holds the returned z, its residual g(z), the last direction, the number of iterations (between 1 and maxiters + 1), and a termination_condition exactly when the last iteration met all tolerances (otherwise maxiters + 1 iterations were spent); alpha and phi stay empty. With verbose=False the point is the same and all entries are empty.", "quantifier": "all residual functions, initial points, inverse Jacobians, tolerances, search methods and iteration limits", "why_tests_cant": "A test inspects the logger of a few converging problems; that the record is right for every exit of the loop, including runs that do not converge, needs an argument over all runs.", "anchors": ["torchdyn/numerics/utils.py:112-118", "torchdyn/numerics/solvers/root.py:259-300"]}
{"id": "C145", "title": "dense_output returns values of an interpolant", "statement": "dense_output(sol, t_sol, t_eval) returns one interpolated state for every entry of t_eval.", "quantifier": "all solutions, time points and evaluation points, both values of return_spline", "why_tests_cant": "That no call whatsoever returns is a statement about all shapes and values; a test shows a single failing call.", "anchors": ["torchdyn/numerics/utils.py:66-75"]}
{"id": "C146", "title": "Energies along computed trajectories of HNN and GNF", "statement": "odeint of an HNN field with euler, midpoint or rk4 returns states whose energy stays within C h^p of the initial energy (p = 1, 2, 4); for a GNF field the energy of a later state exceeds that of an earlier one by at most C h^p; the energy of an HNN is conserved exactly.", "quantifier": "all energy networks with p + 1 continuous derivatives, all exact solutions on a time interval, all grids in it with steps at most h", "why_tests_cant": "A test measures the energy drift of one network on one grid; the order in h for all networks and grids, and the strict drift on every step, are statements about all of them.", "anchors": ["torchdyn/models/energy.py:49-80", "torchdyn/numerics/odeint.py:411-445"]}
{"id": "C147", "title": "A CNF over a Hamiltonian network preserves volume", "statement": "The divergence of an HNN field is zero, so integrating CNF(HNN(H)) never changes the first column (the accumulated log-density), whatever the solver, grid and tolerances, and with a fixed-step solver the other columns are what integrating HNN(H) alone returns; with any trace estimator and any number of columns.", "quantifier": "all twice continuously differentiable per-sample energies, all batches, solvers (euler, midpoint, rk4, dopri5, tsit5), grids, save_at and tolerances", "why_tests_cant": "A test sees a small number in the column for one network; that it is zero exactly for every network is Liouville's theorem and needs the symmetry of second derivatives.", "anchors": ["torchdyn/models/cnf.py:19-65", "torchdyn/models/energy.py:64-80"]}
{"id": "C148", "title": "Accuracy of adjoint gradients with dopri5 in both passes", "statement": "With sensitivity='adjoint' and dopri5 as solver and as solver_adjoint, both passes return for all positive tolerances, and the gradients with respect to the parameters and the initial state are within C h^5 of the derivative of the loss along the exact solution, on every grid with gaps at most h. This holds for a loss on the last output and for weighted losses over all outputs, with a constant that does not depend on the number of outputs.", "quantifier": "all vector fields with six continuous derivatives whose solutions exist on the interval, all losses with two, all weights of the outputs with bounded sum of absolute values, all increasing grids with gaps at most h, all atol > 0 and rtol >= 0 of either pass", "why_tests_cant": "A test compares one gradient on one grid and one pair of tolerances; that the seminorm of the adjoint solve, which leaves the parameter gradient untested (C126), cannot spoil the order in the gaps of the grid is a statement about all of them.", "anchors": ["torchdyn/numerics/sensitivity.py:43-98", "torchdyn/numerics/odeint.py:35-126", "torchdyn/numerics/utils.py:36-51"]}
{"id": "C149", "title": "Stochastic events happen at the right random times", "statement": "odeint_hybrid with a stochastic event (a clock entry of the state that grows at a rate r, an exponential threshold drawn before the call and after every jump, the clock being reset by the jump) with dopri5 or tsit5 returns; successive jumps are separated by threshold/r, each one earlier than that by at most event_tol and never later; no jump that is due before the final time is missed. For independent exponential thresholds the k-th event is the k-th arrival of a Poisson process of rate r up to these shifts, and the probability that no jump happens in time T is exactly exp(-r T).", "quantifier": "all bounded fields whose clock entry has a constant rate, all jump maps that reset it, all sequences of positive thresholds (almost all draws for the law), all sorted spans of at most 4096 event tolerances, all tolerances, both values of priority", "why_tests_cant": "The outputs are random: a test sees single draws. That the number and times of jumps have the right law needs the statement for almost every sequence of thresholds, and that no threshold is skipped needs all step sequences of the controller.", "anchors": ["torchdyn/numerics/utils.py:76-112", "torchdyn/numerics/odeint.py:183-323"]}
{"id": "C150", "title": "odeint_hybrid integrates batches", "statement": "odeint_hybrid accepts callbacks whose check_event returns one boolean per batch element, as StochasticEventCallback suggests (initialize draws one threshold per batch element), and handles the events of each element.", "quantifier": "all batch sizes, fields, callbacks, solvers and spans", "why_tests_cant": "Tests and tutorials use a batch of one; what happens for every other size, with any number of callbacks and whether or not an event takes place, is a statement about all of them.", "anchors": ["torchdyn/numerics/odeint.py:208-249", "torchdyn/numerics/utils.py:76-112"]}
{"id": "C151", "title": "The tolerances of adaptive odeint hold for each sample of a batch", "statement": "odeint integrates a batch of independent initial conditions in one call with one step size. With dopri5 or tsit5, the answer for one sample of the batch meets the tolerances the caller asked for, whatever the other samples are: the sample is advanced only by steps whose error estimate for that sample is within atol + rtol*|x|.", "quantifier": "all fields acting on the samples independently, batch sizes, states, tolerances, grids; solvers dopri5 and tsit5", "why_tests_cant": "The error norm is a mean over all entries of the batch, so the effect depends on the number of samples and on how fast each of them moves; a test fixes both, while the claim is about every batch and fails only for batches that are large relative to the tolerance.", "anchors": ["torchdyn/numerics/odeint.py:326-409", "torchdyn/numerics/utils.py:33-74"]}
{"id": "C152", "title": "A bouncing ball keeps to the energy balance of its bounces", "statement": "A ball above a floor, under gravity, is integrated by odeint_hybrid with dopri5 and one EventCallback that tests 'at or below the floor and not rising' and multiplies the velocity by minus the restitution coefficient c. The call raises nothing. The returned points lie on exact parabolas above the floor, joined by bounces at most event_tol before the ball would reach the floor, and the last point is at the end of t_span. The energy never grows; after n bounces it is c^(2n) times the initial energy up to an error of the order of event_tol that does not grow with n; for c = 1 it is constant. The call returns when the span is shorter than the flights between the bounces (each shortened by three event_tol).", "quantifier": "all gravities, restitution coefficients in [0,1], initial states above the floor, grids with span at most 4096 event_tol, tolerances, j_span, priorities, numbers of bounces", "why_tests_cant": "A test simulates one ball for a few bounces; the claim is about the accumulated effect of event location over every number of bounces, and about which trial steps the loop happens to take.", "anchors": ["torchdyn/numerics/odeint.py:183-323", "torchdyn/numerics/utils.py:76-94"]}
{"id": "C153", "title": "Integrating back recovers the states", "statement": "After integrating a smooth field over an increasing t_span with odeint, integrating from the last state over the reversed t_span gives back every state of the forward integration, in reverse order, up to C h^p, h being the largest gap: p = 1, 2 for euler and midpoint, 4 for rk4 on autonomous fields, 5 for dopri5 (which returns in both directions for all positive tolerances). If the field has Lipschitz constant L and the steps are at most 1/(2 kappa), with kappa = L, 3L/2, 2L for euler, midpoint, rk4, integration is a bijection of the state space in both directions of time, Lipschitz with constants exp(kappa |T - t0|) and, for the inverse, exp(2 kappa |T - t0|). Neither is exact: the backward integration is not the inverse of the forward one, and with steps of length 1/L distinct states can be merged.", "quantifier": "every finite-dimensional state space (complete normed space for the bijection), every C^p field without Lipschitz constant (Lipschitz fields for the bijection), all solutions bounded by R at once, all accepted grids of any length with gaps at most h <= delta, all initial and final states", "why_tests_cant": "Invertibility is a statement about all pairs of initial states and about the existence of a preimage of every final state; the order of the recovery error is a limit over grids.", "anchors": ["torchdyn/numerics/odeint.py:odeint", "torchdyn/numerics/odeint.py:_fixed_odeint", "torchdyn/numerics/odeint.py:_adaptive_odeint", "torchdyn/numerics/solvers/ode.py:Euler", "torchdyn/numerics/solvers/ode.py:Midpoint", "torchdyn/numerics/solvers/ode.py:RungeKutta4", "torchdyn/numerics/solvers/ode.py:DormandPrince45"]}
{"id": "C154", "title": "One grid serves all trajectories in a bounded region with dopri5", "statement": "For a field with five continuous derivatives and a bound R there are C and delta such that odeint with dopri5 returns the requested times for every solution that is bounded by R on its interval, every initial state within delta of it, every grid with gaps at most h <= delta, increasing or decreasing, and all positive tolerances, with states within C (h^5 + initial error) of the solution.", "quantifier": "every number of state components, every C^5 field (no Lipschitz or growth condition), every bound R, all solutions bounded by R on any subinterval of [t0, T] at once, every nearby initial state, every grid of any length in either direction, all tolerances atol > 0, rtol >= 0, every seminorm selection", "why_tests_cant": "A test fixes finitely many initial states, grids and tolerances; that the step-size control terminates and keeps the order for a continuum of solutions with the same constants is a uniform bound.", "anchors": ["torchdyn/numerics/odeint.py:odeint", "torchdyn/numerics/odeint.py:_adaptive_odeint", "torchdyn/numerics/solvers/ode.py:DormandPrince45", "torchdyn/numerics/utils.py:adapt_step"]}
{"id": "C155", "title": "Long-time accuracy on contracting fields", "statement": "Let the vector field contract at rate mu > 0 (inner(x - y, f(t, x) - f(t, y)) <= -mu |x - y|^2) with Lipschitz constant L, and let the gaps of an accepted increasing grid be at most mu / (20 L^2). Then `odeint(f, x, t_span, 'euler' | 'midpoint' | 'rk4')` inherits the contraction: two integrations from different states approach each other like exp(-mu (t - t0) / 2), and every integration approaches an equilibrium at that rate, however long the grid. For an autonomous field with p continuous derivatives (p = 1, 2, 4) the error to a bounded solution is at most C h^p plus the initial distance times exp(-mu (t - t0) / 2), with C independent of the length of the horizon. The same holds without Lipschitz constants for solutions and initial states in a bounded region, for the three fixed-step methods and for `dopri5` with all tolerances, where `odeint` also returns. If such a field rests at z, then from every initial state in a given bounded region and for gaps that are small enough `dopri5` returns and its states approach z like exp(-mu (t - t0) / 2).", "quantifier": "for all finite-dimensional state spaces (contraction and equilibrium: all inner product spaces), all fields with these constants, all initial states, all increasing grids of any length and horizon", "why_tests_cant": "The claim is uniform over unbounded horizons and over all contracting fields; a test integrates one field over one finite horizon, where the usual exponentially growing error bound cannot be told from a constant one.", "anchors": ["torchdyn/numerics/odeint.py:odeint", "torchdyn/numerics/odeint.py:_fixed_odeint", "torchdyn/numerics/solvers/ode.py:Euler", "torchdyn/numerics/solvers/ode.py:Midpoint", "torchdyn/numerics/solvers/ode.py:RungeKutta4", "torchdyn/numerics/odeint.py:_adaptive_odeint", "torchdyn/numerics/solvers/ode.py:DormandPrince45"]}
{"id": "C156", "title": "GNF with strongly convex energy converges to the minimiser", "statement": "Let the summed energy of a `GNF` be differentiable and strongly convex with modulus mu > 0, with a gradient of Lipschitz constant L, and let z be a state of least energy. Then `odeint(gnf, x, t_span, 'euler' | 'midpoint' | 'rk4')` on any accepted increasing grid with gaps at most mu / (20 L^2) returns states with |y - z|^2 <= exp(-mu (t - t0)) |x - z|^2 and with energies at most L/2 exp(-mu (t - t0)) |x - z|^2 above the least one. With `dopri5` the states converge at the same rate from every bounded region without any Lipschitz constant, for gaps that are small enough and all tolerances, if the energy has three continuous derivatives; `odeint` then returns.", "quantifier": "for all batch sizes and widths, all such energies, all initial states, all increasing grids of any length with these gaps, the four methods", "why_tests_cant": "A test runs one energy from a few initial states over one horizon; the rate is claimed for every strongly convex energy, every grid and every length.", "anchors": ["torchdyn/models/energy.py:GNF", "torchdyn/numerics/odeint.py:odeint", "torchdyn/numerics/odeint.py:_fixed_odeint", "torchdyn/numerics/solvers/ode.py:Euler", "torchdyn/numerics/solvers/ode.py:Midpoint", "torchdyn/numerics/solvers/ode.py:RungeKutta4", "torchdyn/numerics/odeint.py:_adaptive_odeint", "torchdyn/numerics/solvers/ode.py:DormandPrince45"]}
