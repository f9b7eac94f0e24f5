{
 "claims": [
  {
   "property": "C01",
   "status": "proved",
   "theorems": [
    "Torchdyn.C01_dopri5_linear",
    "Torchdyn.C01_dopri5_linear_error"
   ],
   "note": "Every field, module and step size; exact polynomial, error polynomial included."
  },
  {
   "property": "C02",
   "status": "proved",
   "theorems": [
    "Torchdyn.C02_dopri5_fsal",
    "Torchdyn.C02_tsit5_fsal"
   ],
   "note": "Both solvers; k7 = f(t+dt, x_new) for every field."
  },
  {
   "property": "C03",
   "status": "proved",
   "theorems": [
    "Torchdyn.C03_dopri5_poly",
    "Torchdyn.C03_dopri5_error_zero",
    "Torchdyn.C03_dopri5_order_conditions",
    "Torchdyn.C03_dopri5_embedded_order_conditions",
    "Torchdyn.C03_dopri5_row_sums"
   ],
   "note": "Exact quadrature and zero error estimate; order conditions for all rooted trees up to order 5 (4 for the embedded weights) by exhaustive generation proved complete."
  },
  {
   "property": "C04",
   "status": "proved",
   "theorems": [
    "Torchdyn.C04_tsit5_order_conditions",
    "Torchdyn.C04_tsit5_embedded_order_conditions",
    "Torchdyn.C04_tsit5_row_sums",
    "Torchdyn.C04_tsit5_const"
   ],
   "note": "All rooted trees up to order 5 (4 embedded) and row sums within 1e-80 for the digit-exact coefficients."
  },
  {
   "property": "C05",
   "status": "partial",
   "theorems": [
    "Torchdyn.C05_rk4_autonomous_partial",
    "Torchdyn.C05_rk4_linear_partial",
    "Torchdyn.C05_rk4_time_dependent_refuted",
    "Torchdyn.C05_rk4_time_defect",
    "Torchdyn.C05_rk4_order_conditions_partial"
   ],
   "note": "True for autonomous fields and linear systems; refuted for time-dependent fields because the code pairs stage i with c[i-1] (wrong node), witness in C05_rk4_time_dependent_refuted."
  },
  {
   "property": "C06",
   "status": "proved",
   "theorems": [
    "Torchdyn.C06_euler_linear",
    "Torchdyn.C06_midpoint_linear",
    "Torchdyn.C06_euler_const",
    "Torchdyn.C06_midpoint_poly",
    "Torchdyn.C06_formulas"
   ],
   "note": ""
  },
  {
   "property": "C07",
   "status": "proved",
   "theorems": [
    "Torchdyn.C07_k1_transparent",
    "Torchdyn.C07_k1_cost",
    "Torchdyn.C07_k1_used"
   ],
   "note": "All explicit built-in solvers."
  },
  {
   "property": "C08",
   "status": "proved",
   "theorems": [
    "Torchdyn.C08_step_equivariant",
    "Torchdyn.C08_adaptive_step_equivariant",
    "Torchdyn.C08_time_shift",
    "Torchdyn.C08_time_reversal"
   ],
   "note": "Also time shift and time reversal covariance."
  },
  {
   "property": "C09",
   "status": "proved",
   "theorems": [
    "Torchdyn.C09_alf_grid",
    "Torchdyn.C09_alf_reversible",
    "Torchdyn.C09_alf_mirror",
    "Torchdyn.C09_alf_formula"
   ],
   "note": ""
  },
  {
   "property": "C10",
   "status": "proved",
   "theorems": [
    "Torchdyn.C10_hyper_residual",
    "Torchdyn.C10_hyper_zero",
    "Torchdyn.C10_hyper_exact"
   ],
   "note": ""
  },
  {
   "property": "C11",
   "status": "partial",
   "theorems": [
    "Torchdyn.C11_implicit_euler_partial",
    "Torchdyn.C11_implicit_euler_dissipative",
    "Torchdyn.C11_implicit_euler_new_time_refuted"
   ],
   "note": "The residual is evaluated at the old time t, so the claim holds with f(t, .) (hence for autonomous fields) and is refuted for time-dependent fields."
  },
  {
   "property": "C12",
   "status": "proved",
   "theorems": [
    "Torchdyn.C12_trajectory",
    "Torchdyn.C12_rejects_close_grid",
    "Torchdyn.C12_short_grid",
    "Torchdyn.C12_euler",
    "Torchdyn.C12_four_tuple_rejected"
   ],
   "note": "Any fixed-step solver of the modelled interface, any grid accepted by the code; exact arithmetic for the accumulated clock (C15 covers rounding)."
  },
  {
   "property": "C13",
   "status": "proved",
   "theorems": [
    "Torchdyn.C13_save_at",
    "Torchdyn.C13_unsorted_refuted"
   ],
   "note": "Save times on the grid; a companion refutation shows that an unsorted save_at is returned in grid order."
  },
  {
   "property": "C14",
   "status": "partial",
   "theorems": [
    "Torchdyn.C14_outside_refuted",
    "Torchdyn.C14_outside_partial",
    "Torchdyn.C14_close_save_at_rejected"
   ],
   "note": "Refuted as stated: a save time off the grid is silently dropped (C14_outside_refuted); proved: what is returned in that case, and that close save times are rejected."
  },
  {
   "property": "C15",
   "status": "partial",
   "theorems": [
    "Torchdyn.C15_clock",
    "Torchdyn.C15_recognised_partial",
    "Torchdyn.C15_crossing_refuted"
   ],
   "note": "The bound on the clock is proved for every grid in the standard model of rounding (met by rounding to nearest, binary_rounded), recognition of every grid point for nonnegative grids. False for grids that approach zero from a large negative time (C15_crossing_refuted, float32): the last state is lost."
  },
  {
   "property": "C16",
   "status": "proved",
   "theorems": [
    "Torchdyn.C16_split_backward",
    "Torchdyn.C16_split"
   ],
   "note": ""
  },
  {
   "property": "C17",
   "status": "partial",
   "theorems": [
    "Torchdyn.C17_backward_partial",
    "Torchdyn.C17_backward_builtin_partial",
    "Torchdyn.C17_returned_times_refuted",
    "Torchdyn.C17_backward_save_at_refuted",
    "Torchdyn.C17_round_trip_const"
   ],
   "note": "States agree with the time-reversed problem; refuted for returned times of save_at (not negated)."
  },
  {
   "property": "C18",
   "status": "proved",
   "theorems": [
    "Torchdyn.C18_nfe",
    "Torchdyn.C18_nfe_alf"
   ],
   "note": "Exact number of field calls, also for asynchronous leapfrog."
  },
  {
   "property": "C19",
   "status": "proved",
   "theorems": [
    "Torchdyn.C19_equivariant",
    "Torchdyn.C19_batch_sample",
    "Torchdyn.C19_batch_permute"
   ],
   "note": "Equivariance under any map commuting with the step, batch samples and permutations."
  },
  {
   "property": "C20",
   "status": "proved",
   "theorems": [
    "Torchdyn.C20_euler_converges"
   ],
   "note": "Global error bound for Euler for every Lipschitz field with bounded second derivative of the solution."
  },
  {
   "property": "C21",
   "status": "proved",
   "theorems": [
    "Torchdyn.C21_times",
    "Torchdyn.C21_times_backward",
    "Torchdyn.C21_short_grid",
    "Torchdyn.C21_fuel_irrelevant"
   ],
   "note": "Forward and backward grids, with and without interpolator and return_all_eval; exact arithmetic."
  },
  {
   "property": "C22",
   "status": "proved",
   "theorems": [
    "Torchdyn.C22_accepted",
    "Torchdyn.C22_accepted_backward"
   ],
   "note": "Every pair of consecutive returned points is joined by a chain of accepted steps, forward and backward, without interpolator."
  },
  {
   "property": "C23",
   "status": "proved",
   "theorems": [
    "Torchdyn.C23_all_eval",
    "Torchdyn.C23_all_eval_consecutive"
   ],
   "note": "return_all_eval without interpolator: consecutive outputs are single accepted steps."
  },
  {
   "property": "C24",
   "status": "partial",
   "theorems": [
    "Torchdyn.C24_attempts",
    "Torchdyn.C24_window_dopri5",
    "Torchdyn.C24_window_tsit5",
    "Torchdyn.C24_evaluations_partial",
    "Torchdyn.C24_trial_point_refuted"
   ],
   "note": "Step sizes, times and every attempted step stay inside the span for dopri5 and tsit5 in both directions. The evaluations of the whole call stay inside the span when the trial point of init_step does (C24_evaluations_partial); in general it does not: for x' = 1, x(0) = 1000 on [0, 1] the field is evaluated at time 10 (C24_trial_point_refuted)."
  },
  {
   "property": "C25",
   "status": "proved",
   "theorems": [
    "Torchdyn.C25_controller",
    "Torchdyn.C25_builtin",
    "Torchdyn.C25_monotone",
    "Torchdyn.C25_target",
    "Torchdyn.C25_zero"
   ],
   "note": ""
  },
  {
   "property": "C26",
   "status": "proved",
   "theorems": [
    "Torchdyn.C26_init_step",
    "Torchdyn.C26_target"
   ],
   "note": ""
  },
  {
   "property": "C27",
   "status": "proved",
   "theorems": [
    "Torchdyn.C27_terminates_general",
    "Torchdyn.C27_terminates_backward",
    "Torchdyn.C27_terminates_dopri5",
    "Torchdyn.C27_terminates_tsit5",
    "Torchdyn.C27_terminates_linear_growth",
    "Torchdyn.C27_terminates_dopri5_linear",
    "Torchdyn.C27_terminates_tsit5_linear"
   ],
   "note": "Any field bounded by a constant (in particular discontinuous ones) and any field of linear growth (norm of f(t,x) at most a + L times the norm of x, in particular globally Lipschitz fields); any positive tolerances; increasing and decreasing grids."
  },
  {
   "property": "C28",
   "status": "partial",
   "theorems": [
    "Torchdyn.C28_diverges_when_rejected",
    "Torchdyn.C28_always_returns_refuted"
   ],
   "note": "Refuted as stated: there are smooth-on-the-half-line fields for which the loop never returns (no minimum step, no step limit). C27 is the positive part."
  },
  {
   "property": "C29",
   "status": "proved",
   "theorems": [
    "Torchdyn.C29_nfe_dopri5",
    "Torchdyn.C29_nfe_tsit5"
   ],
   "note": "Counted in a state monad; calls = 2 + 6 * iterations, for runs that return and for runs cut off."
  },
  {
   "property": "C30",
   "status": "proved",
   "theorems": [
    "Torchdyn.C30_poly_exact",
    "Torchdyn.C30_poly_exact_backward"
   ],
   "note": ""
  },
  {
   "property": "C31",
   "status": "proved",
   "theorems": [
    "Torchdyn.C31_values",
    "Torchdyn.C31_reproduces_quartics",
    "Torchdyn.C31_derivatives"
   ],
   "note": "Values over any field, derivatives over the reals."
  },
  {
   "property": "C32",
   "status": "proved",
   "theorems": [
    "Torchdyn.C32_grid_independent",
    "Torchdyn.C32_outputs"
   ],
   "note": "Two grids with the same ends give the same run; every output is a node of the chain of accepted steps or the dense output of a step."
  },
  {
   "property": "C33",
   "status": "proved",
   "theorems": [
    "Torchdyn.C33_trace",
    "Torchdyn.C33_errors"
   ],
   "note": "Any solver object of the first-same-as-last interface, any callbacks, any history; also: the only exception is ValueError."
  },
  {
   "property": "C34",
   "status": "partial",
   "theorems": [
    "Torchdyn.C34_jspan_ignored",
    "Torchdyn.C34_suppressed",
    "Torchdyn.C34_two_jumps_refuted"
   ],
   "note": "Refuted: jnum is only incremented by the initial jump, so j_span = 1 allows any number of jumps (C34_two_jumps_refuted); C34_jspan_ignored shows that its value beyond that is ignored; C34_suppressed gives the cases where the loop is not entered at all."
  },
  {
   "property": "C35",
   "status": "partial",
   "theorems": [
    "Torchdyn.C35_visits_partial",
    "Torchdyn.C35_visits_refuted"
   ],
   "note": "Refuted (C35_visits_refuted); proved when no event fires and no step is rejected."
  },
  {
   "property": "C36",
   "status": "partial",
   "theorems": [
    "Torchdyn.C36_times_partial",
    "Torchdyn.C36_final_time_refuted"
   ],
   "note": "Refuted (C36_final_time_refuted: the bisection can leave the step); proved for events that stay on until handled."
  },
  {
   "property": "C37",
   "status": "partial",
   "theorems": [
    "Torchdyn.C37_no_events_partial",
    "Torchdyn.C37_strict_refuted"
   ],
   "note": "Proved with nondecreasing times, plus absence of exceptions; strictness refuted (a checkpoint hit exactly is returned twice)."
  },
  {
   "property": "C38",
   "status": "proved",
   "theorems": [
    "Torchdyn.C38_parareal",
    "Torchdyn.C38_converged",
    "Torchdyn.C38_default_guess",
    "Torchdyn.C38_fixed_point"
   ],
   "note": "Any row-wise fixed-step family for coarse and fine, any field, any initial guess; convergence after n iterations and fixed point characterised."
  },
  {
   "property": "C39",
   "status": "partial",
   "theorems": [
    "Torchdyn.C39_maxiter_partial",
    "Torchdyn.C39_maxiter_refuted"
   ],
   "note": "Raises IndexError whenever maxiter >= len(t_span) (C39_maxiter_refuted), so the default maxiter = 4 fails on grids of at most four points; proved for every maxiter < len(t_span)."
  },
  {
   "property": "C40",
   "status": "partial",
   "theorems": [
    "Torchdyn.C40_grid_ignored",
    "Torchdyn.C40_nonuniform_refuted",
    "Torchdyn.C40_uniform_partial"
   ],
   "note": "Refuted: every sub-interval is integrated over the first spacing of t_span (C40_nonuniform_refuted, C40_grid_ignored); proved on uniform grids."
  },
  {
   "property": "C41",
   "status": "partial",
   "theorems": [
    "Torchdyn.C41_default_refuted",
    "Torchdyn.C41_fixed_point_refuted",
    "Torchdyn.C41_one_sweep_partial"
   ],
   "note": "Refuted: the default maxiter raises, and the iteration is not a fixed point of the sequential solution; one sweep from an exact guess is described."
  },
  {
   "property": "C42",
   "status": "partial",
   "theorems": [
    "Torchdyn.C42_third_entry_refuted",
    "Torchdyn.C42_jagged_partial",
    "Torchdyn.C42_two_points_partial",
    "Torchdyn.C42_repeated_point_refuted"
   ],
   "note": "Refuted for the built-in solvers (third tuple entry is None: TypeError) and, for solvers returning the state third, for grids of three points or more (second point repeated). Proved: exact result for all jagged grids, hence correctness on two-point grids."
  },
  {
   "property": "C43",
   "status": "proved",
   "theorems": [
    "Torchdyn.C43_no_noise",
    "Torchdyn.C43_agrees_with_odeint"
   ],
   "note": "All four usable solvers, every drift, Brownian path and increasing grid; equality with odeint euler on separated grids."
  },
  {
   "property": "C44",
   "status": "proved",
   "theorems": [
    "Torchdyn.C44_queries",
    "Torchdyn.C44_additive"
   ],
   "note": "Query log in a state monad for every drift and diffusion (eulerHeun asks for each interval twice), telescoping for additive noise on every increasing grid."
  },
  {
   "property": "C45",
   "status": "partial",
   "theorems": [
    "Torchdyn.C45_additive_partial",
    "Torchdyn.C45_additive_time_partial",
    "Torchdyn.C45_linear_partial",
    "Torchdyn.C45_linear_no_drift_partial",
    "Torchdyn.C45_additive_refuted",
    "Torchdyn.C45_linear_refuted"
   ],
   "note": "Refuted for time-dependent additive noise (eulerHeun) and for linear noise with drift (derivative-free support point contains the drift); proved: constant diffusion, exact formulas with the extra terms, and the exact expansions without drift."
  },
  {
   "property": "C46",
   "status": "partial",
   "theorems": [
    "Torchdyn.C46_checked_partial",
    "Torchdyn.C46_matching_accepted",
    "Torchdyn.C46_milstein_refuted",
    "Torchdyn.C46_adaptive",
    "Torchdyn.C46_names"
   ],
   "note": "Refuted for the Milstein solvers, which never check; proved for euler and eulerHeun; error branches for names and missing attributes."
  },
  {
   "property": "C47",
   "status": "proved",
   "theorems": [
    "Torchdyn.C47_certified",
    "Torchdyn.C47_errors"
   ],
   "note": "Both Broyden methods, all line searches, any residual and tolerances; reference norms are those after the first iteration; error branches included."
  },
  {
   "property": "C48",
   "status": "proved",
   "theorems": [
    "Torchdyn.C48_broyden_secant",
    "Torchdyn.C48_broyden_orthogonal",
    "Torchdyn.C48_broyden_fast_secant",
    "Torchdyn.C48_broyden_fast_contracts",
    "Torchdyn.C48_broyden_fast_orthogonal"
   ],
   "note": "Both updates, every batch, dimension and regulariser; contraction of the mismatch for broyden_fast."
  },
  {
   "property": "C49",
   "status": "partial",
   "theorems": [
    "Torchdyn.C49_naive",
    "Torchdyn.C49_armijo_partial",
    "Torchdyn.C49_searches_return",
    "Torchdyn.C49_cubic",
    "Torchdyn.C49_true_slope_refuted"
   ],
   "note": "Naive search fully proved; Armijo search proved with the slope the code uses (-phi(1)) for every interpolation formula; refuted for the true slope. Exact real arithmetic: NaN and infinities not modelled."
  },
  {
   "property": "C50",
   "status": "partial",
   "theorems": [
    "Torchdyn.C50_no_time_partial",
    "Torchdyn.C50_time_module_partial",
    "Torchdyn.C50_time_callable_partial",
    "Torchdyn.C50_accepted_signatures_partial",
    "Torchdyn.C50_time_lambda_refuted",
    "Torchdyn.C50_neural_ode_refuted",
    "Torchdyn.C50_neural_ode_partial",
    "Torchdyn.C50_idempotent",
    "Torchdyn.C50_defunc_wrap_refuted",
    "Torchdyn.C50_defunc_nested",
    "Torchdyn.C50_parameter_order_refuted",
    "Torchdyn.C50_sde"
   ],
   "note": "Idempotence holds for every field; values are correct for fields without t, for modules with t, and for callables accepting args. False of the code: a plain callable (t, x) without args, and a module forward(t, x) inside a NeuralODE, raise TypeError on every call; lambda x, t gets its values swapped; wrapping with defunc_wrap twice nests."
  },
  {
   "property": "C51",
   "status": "proved",
   "theorems": [
    "Torchdyn.C51_nfe",
    "Torchdyn.C51_only_state",
    "Torchdyn.C51_standardized",
    "Torchdyn.C51_sde"
   ],
   "note": "Every call sequence, including calls that raise; also SDEFunc (drift plus diffusion calls)."
  },
  {
   "property": "C52",
   "status": "proved",
   "theorems": [
    "Torchdyn.C52_higher_order",
    "Torchdyn.C52_neural_ode",
    "Torchdyn.C52_plain_function",
    "Torchdyn.C52_args_dropped"
   ],
   "note": "Every order and block width; exceptions passed on. Also shown: args never reach the field at order two and more."
  },
  {
   "property": "C53",
   "status": "partial",
   "theorems": [
    "Torchdyn.C53_adaptive_refuted",
    "Torchdyn.C53_dynamics_partial",
    "Torchdyn.C53_quadrature_partial",
    "Torchdyn.C53_order_refuted",
    "Torchdyn.C53_loss_in_error_norm",
    "Torchdyn.C53_constructor_partial",
    "Torchdyn.C53_constructor_time_partial",
    "Torchdyn.C53_constructor_adjoint"
   ],
   "note": "Proved for euler, midpoint, rk4 on every grid: dynamics unaffected (also save_at and exceptions), first column is the solver quadrature. False of the code at order >= 2 (AttributeError) and for adaptive solvers: the loss column enters the error norm, and an unbounded loss keeps a solvable problem from returning (C53_adaptive_refuted). The constructor (C53_constructor_*): order one, user fields of either call signature that the wrapper accepts; plain functions with a time parameter are outside these two statements (C50)."
  },
  {
   "property": "C54",
   "status": "partial",
   "theorems": [
    "Torchdyn.C54_control",
    "Torchdyn.C54_unaugmented",
    "Torchdyn.C54_last_call",
    "Torchdyn.C54_during_integration",
    "Torchdyn.C54_order_refuted"
   ],
   "note": "Exact contents of every control attribute for every module tree and call history; un-augmented when the CNFs precede the control layers in named_modules order (refuted without)."
  },
  {
   "property": "C55",
   "status": "proved",
   "theorems": [
    "Torchdyn.C55_unpack_pack",
    "Torchdyn.C55_pack_unpack",
    "Torchdyn.C55_interp",
    "Torchdyn.C55_interp_empty",
    "Torchdyn.C55_dynamics",
    "Torchdyn.C55_unused_parameter_refuted"
   ],
   "note": "Packing and slicing of the adjoint state are inverse to each other for all sizes; the flat adjoint dynamics act on the unpacked parts. Beyond the property: an unused parameter with more than one entry makes the derivative narrower than the state (C55_unused_parameter_refuted), and the interpolated adjoint needs at least one parameter."
  },
  {
   "property": "C56",
   "status": "partial",
   "theorems": [
    "Torchdyn.C56_linear_gradient",
    "Torchdyn.C56_euler",
    "Torchdyn.C56_decreasing_refuted"
   ],
   "note": "Exact discrete gradient for every linear field, pairing, increasing grid and cotangents on all points, for euler, and for midpoint and rk4 by C56_linear_gradient. False for decreasing grids (C56_decreasing_refuted): the forward pass returns negated times."
  },
  {
   "property": "C57",
   "status": "partial",
   "theorems": [
    "Torchdyn.C57_autograd_partial",
    "Torchdyn.C57_adjoint_refuted",
    "Torchdyn.C57_args_refuted",
    "Torchdyn.C57_unknown_sensitivity"
   ],
   "note": "autograd honours save_at; both adjoint methods ignore it and drop args, or raise RuntimeError when args is not empty."
  },
  {
   "property": "C58",
   "status": "partial",
   "theorems": [
    "Torchdyn.C58_layer_partial",
    "Torchdyn.C58_autograd_partial",
    "Torchdyn.C58_adjoint_refuted",
    "Torchdyn.C58_swapped_refuted"
   ],
   "note": "autograd passes the settings; both adjoint methods raise AttributeError because the solver attribute is None, and exchange fine_steps and maxiter."
  },
  {
   "property": "C59",
   "status": "proved",
   "theorems": [
    "Torchdyn.C59_energy_conserved",
    "Torchdyn.C59_sample_energy_conserved",
    "Torchdyn.C59_odd_refuted"
   ],
   "note": "Total and per-sample energy are constant along every exact solution, for every differentiable energy and even width. For odd widths, outside the claim, it is false (C59_odd_refuted)."
  },
  {
   "property": "C60",
   "status": "proved",
   "theorems": [
    "Torchdyn.C60_energy_antitone",
    "Torchdyn.C60_rate"
   ],
   "note": "Nonincreasing along every exact solution, with the exact rate."
  },
  {
   "property": "C61",
   "status": "proved",
   "theorems": [
    "Torchdyn.C61_autograd_trace",
    "Torchdyn.C61_forward",
    "Torchdyn.C61_default",
    "Torchdyn.C61_ignores_first_column",
    "Torchdyn.C61_order_refuted"
   ],
   "note": "For every differentiable network acting sample by sample; column 0 of the input is ignored for every network. Beyond the property: order > 1 always raises AttributeError."
  },
  {
   "property": "C62",
   "status": "proved",
   "theorems": [
    "Torchdyn.C62_quadratic_form",
    "Torchdyn.C62_unbiased",
    "Torchdyn.C62_unbiased_finite",
    "Torchdyn.C62_needs_noise"
   ],
   "note": "For every noise distribution with identity second moments (measure-theoretic and finite versions)."
  },
  {
   "property": "C63",
   "status": "proved",
   "theorems": [
    "Torchdyn.C63_augmenter_zeros",
    "Torchdyn.C63_augmenter_func",
    "Torchdyn.C63_depth_cat",
    "Torchdyn.C63_data_control"
   ],
   "note": "For every number of slices; the error branches are covered."
  },
  {
   "property": "C64",
   "status": "proved",
   "theorems": [
    "Torchdyn.C64_weights",
    "Torchdyn.C64_weights_constant",
    "Torchdyn.C64_forward",
    "Torchdyn.C64_index",
    "Torchdyn.C64_init_zero",
    "Torchdyn.C64_fourier"
   ],
   "note": "Weights, forward pass and zero initialisation for every expansion that yields one entry per degree; C64_fourier and C79_fixed_rbf_partial show which do."
  },
  {
   "property": "C65",
   "status": "partial",
   "theorems": [
    "Torchdyn.C65_layer_partial",
    "Torchdyn.C65_weights_partial",
    "Torchdyn.C65_direct_refuted"
   ],
   "note": "In a Galerkin layer of every degree, entry k is T_k. Called directly with degrees 0..N the module omits T_N (C65_direct_refuted)."
  },
  {
   "property": "C66",
   "status": "partial",
   "theorems": [
    "Torchdyn.C66_moons_size",
    "Torchdyn.C66_moons_geometry",
    "Torchdyn.C66_moons_ends",
    "Torchdyn.C66_spirals_size",
    "Torchdyn.C66_spirals_geometry",
    "Torchdyn.C66_gaussians",
    "Torchdyn.C66_gaussians_spiral",
    "Torchdyn.C66_gaussians_three_refuted",
    "Torchdyn.C66_gaussians_dim_refuted"
   ],
   "note": "Moons and spirals: sizes, labels and geometry for every n and noise. Gaussians hold in the plane; in three dimensions the centres are off the circle and from four dimensions on (and in one) every call raises."
  },
  {
   "property": "C67",
   "status": "partial",
   "theorems": [
    "Torchdyn.C67_sphere",
    "Torchdyn.C67_even_partial",
    "Torchdyn.C67_odd_refuted",
    "Torchdyn.C67_three_refuted"
   ],
   "note": "randnsphere is proved for every dimension. Concentric spheres work for even n_samples only; odd ones raise RuntimeError (three samples give a repeated point)."
  },
  {
   "property": "C68",
   "status": "proved",
   "theorems": [
    "Torchdyn.C68_names",
    "Torchdyn.C68_ms_names"
   ],
   "note": "For all strings, ODE and multiple shooting names."
  },
  {
   "property": "C69",
   "status": "partial",
   "theorems": [
    "Torchdyn.C69_adaptive_refuted",
    "Torchdyn.C69_fixed_partial",
    "Torchdyn.C69_order",
    "Torchdyn.C69_other_solvers"
   ],
   "note": "False for adaptive leapfrog: always ValueError. Fixed-step leapfrog and other solvers are characterised."
  },
  {
   "property": "C70",
   "status": "partial",
   "theorems": [
    "Torchdyn.C70_run",
    "Torchdyn.C70_causal",
    "Torchdyn.C70_last",
    "Torchdyn.C70_reverse_refuted"
   ],
   "note": "Causality, recurrence and last_output are proved; reverse=True always raises UnboundLocalError."
  },
  {
   "property": "C71",
   "status": "proved",
   "theorems": [
    "Torchdyn.C71_stack",
    "Torchdyn.C71_missing_key",
    "Torchdyn.C71_run"
   ],
   "note": "For every stepper that keeps the set of keys, grid and save_at."
  },
  {
   "property": "C72",
   "status": "partial",
   "theorems": [
    "Torchdyn.C72_seminorm_partial",
    "Torchdyn.C72_error_ratio",
    "Torchdyn.C72_prefix_partial",
    "Torchdyn.C72_flag",
    "Torchdyn.C72_initial_step_refuted"
   ],
   "note": "Proved for the loop given the initial step size; refuted for the whole call because init_step uses the full norm."
  },
  {
   "property": "C73",
   "status": "partial",
   "theorems": [
    "Torchdyn.C73_linear_rate_partial",
    "Torchdyn.C73_default_search_refuted"
   ],
   "note": "Refuted for the default line search (sign mismatch between LineSearcher.phi and Broyden.step); without line search the exact linear rate is proved for every affine residual."
  },
  {
   "property": "C74",
   "status": "partial",
   "theorems": [
    "Torchdyn.C74_end_time_partial",
    "Torchdyn.C74_start_time_refuted"
   ],
   "note": "The end-time entry is correct; the start-time entry has the wrong sign (C74_start_time_refuted)."
  },
  {
   "property": "C75",
   "status": "partial",
   "theorems": [
    "Torchdyn.C75_adjoint_partial",
    "Torchdyn.C75_interpolated_partial",
    "Torchdyn.C75_interpolated_adaptive_refuted"
   ],
   "note": "adjoint equals autograd; interpolated_adjoint equals autograd for fixed-step solvers but returns all evaluation times with adaptive solvers."
  },
  {
   "property": "C76",
   "status": "proved",
   "theorems": [
    "Torchdyn.C76_euler_lagrange",
    "Torchdyn.C76_velocity",
    "Torchdyn.C76_energy"
   ],
   "note": "Euler-Lagrange equation, velocity and energy conservation along every exact solution."
  },
  {
   "property": "C77",
   "status": "partial",
   "theorems": [
    "Torchdyn.C77_conservative_snf_refuted"
   ],
   "note": "False: forward always raises AttributeError (C77_conservative_snf_refuted)."
  },
  {
   "property": "C78",
   "status": "partial",
   "theorems": [
    "Torchdyn.C78_spacing_partial",
    "Torchdyn.C78_degrees_refuted",
    "Torchdyn.C78_polynomial_refuted"
   ],
   "note": "False for every degree >= 3: linspace(0, deg, deg) has deg equally spaced points from 0 to deg, spacing deg/(deg-1) (C78_spacing_partial)."
  },
  {
   "property": "C79",
   "status": "partial",
   "theorems": [
    "Torchdyn.C79_no_bias_refuted",
    "Torchdyn.C79_adaptive_rbf_refuted",
    "Torchdyn.C79_fixed_rbf_partial"
   ],
   "note": "Non-adaptive expansions with bias work; bias=False and adaptive radial basis functions always raise."
  },
  {
   "property": "C80",
   "status": "partial",
   "theorems": [
    "Torchdyn.C80_located_partial",
    "Torchdyn.C80_error_refuted"
   ],
   "note": "Proved when t_span[-1] - t_span[0] <= 4096 * event_tol (C80_located_partial), where the limit of 100 bisection steps suffices. Refuted in general: the bracket is reset to the full step after every test without event, so 100 steps can end on a quiet state and ValueError is raised (C80_error_refuted)."
  },
  {
   "property": "C81",
   "status": "proved",
   "theorems": [
    "Torchdyn.C81_dopri5_order",
    "Torchdyn.C81_tsit5_order"
   ],
   "note": "Local error and error estimate of dopri5 for time-dependent C^5 fields; tsit5 for autonomous C^5 fields (up to the rounding of its decimals). Proved through elementary differentials over rooted trees; exact real arithmetic."
  },
  {
   "property": "C82",
   "status": "partial",
   "theorems": [
    "Torchdyn.C82_midpoint_converges",
    "Torchdyn.C82_rk4_converges_partial",
    "Torchdyn.C82_euler_converges",
    "Torchdyn.C82_rk4_time_refuted",
    "Torchdyn.C82_declared_order_exact"
   ],
   "note": "euler and midpoint for all fields; rk4 for autonomous fields, refuted (C82_rk4_time_refuted) for time-dependent ones. Exact real arithmetic."
  },
  {
   "property": "C83",
   "status": "proved",
   "theorems": [
    "Torchdyn.C83_variation",
    "Torchdyn.C83_gradient",
    "Torchdyn.C83_frechet"
   ],
   "note": "For exact solves of the adjoint equation (hypothesis ExactAlong, shown satisfiable); states and parameters in finite-dimensional spaces. C83_frechet proves differentiability of the solutions and identifies the Fr\u00e9chet gradient of all losses including the integral loss. Gradients with respect to times are C74."
  },
  {
   "property": "C84",
   "status": "proved",
   "theorems": [
    "Torchdyn.C84_after_call",
    "Torchdyn.C84_seen_by_module"
   ],
   "note": "After any DEFunc call, and while the user module body runs, every submodule with attribute t holds the current time; nothing else changes."
  },
  {
   "property": "C85",
   "status": "partial",
   "theorems": [
    "Torchdyn.C85_leapfrog_retrace_partial",
    "Torchdyn.C85_leapfrog_backward",
    "Torchdyn.C85_leapfrog_refuted",
    "Torchdyn.C85_adaptive_refuted"
   ],
   "note": "False of the code. The leapfrog run on a decreasing grid does not negate the velocity half, so it does not retrace (refuted on x'=x); with the velocity negated by hand it retraces exactly, for all fields and grids (C85_leapfrog_retrace_partial). The other adaptive solvers get the first stage f(-t0,x) instead of -f(t0,x): dopri5 ends at a wrong state on every non-zero constant field (C85_adaptive_refuted)."
  },
  {
   "property": "C86",
   "status": "proved",
   "theorems": [
    "Torchdyn.C86_dopri5",
    "Torchdyn.C86_dopri5_backward",
    "Torchdyn.C86_tsit5",
    "Torchdyn.C86_dopri5_total"
   ],
   "note": "dopri5 forward, backward and total (with termination) for every field with five continuous derivatives, no Lipschitz or growth condition (also on solutions that blow up after the interval); tsit5 for autonomous Lipschitz fields up to 1e-80. h must be below a threshold depending on field and interval. Exact real arithmetic."
  },
  {
   "property": "C87",
   "status": "proved",
   "theorems": [
    "Torchdyn.C87_step",
    "Torchdyn.C87_run"
   ],
   "note": "One step (C87_step) and whole runs (C87_run), for smooth fields without Lipschitz condition. The bound is in terms of the accepted step sizes. Exact real arithmetic."
  },
  {
   "property": "C88",
   "status": "partial",
   "theorems": [
    "Torchdyn.C88_residual",
    "Torchdyn.C88_time_partial",
    "Torchdyn.C88_time_refuted",
    "Torchdyn.C88_first_row",
    "Torchdyn.C88_odeint",
    "Torchdyn.C88_short",
    "Torchdyn.C88_unique",
    "Torchdyn.C88_accuracy",
    "Torchdyn.C88_shifted"
   ],
   "note": "residual characterised, unique solvability, accuracy for inexact minimisation; false for time-dependent fields (C88_time_refuted): they are frozen at time 0. The optimiser (LBFGS) is a parameter. _shifted_fixed_odeint never returns (C88_shifted)"
  },
  {
   "property": "C89",
   "status": "partial",
   "theorems": [
    "Torchdyn.C89_forward",
    "Torchdyn.C89_trajectory_partial",
    "Torchdyn.C89_repeatable",
    "Torchdyn.C89_accuracy",
    "Torchdyn.C89_trajectory_refuted",
    "Torchdyn.C89_solvers",
    "Torchdyn.C89_solver_adjoint_refuted"
   ],
   "note": "forward equals odeint on the user field; trajectory equals forward under autograd without interpolator; false under interpolated_adjoint (C89_trajectory_refuted) and for solver_adjoint objects (C89_solver_adjoint_refuted)"
  },
  {
   "property": "C90",
   "status": "partial",
   "theorems": [
    "Torchdyn.C90_forward_partial",
    "Torchdyn.C90_no_noise",
    "Torchdyn.C90_default_refuted",
    "Torchdyn.C90_errors",
    "Torchdyn.C90_trajectory_refuted"
   ],
   "note": "forward equals sdeint when a Brownian motion is given; the default bm=None always raises (C90_default_refuted), trajectory always raises (C90_trajectory_refuted)"
  },
  {
   "property": "C91",
   "status": "proved",
   "theorems": [
    "Torchdyn.C91_batch",
    "Torchdyn.C91_permute",
    "Torchdyn.C91_repeat"
   ],
   "note": "General form C91_batch (every entry copied equally often), permutations and repetition. Full norm (seminorm off); exact real arithmetic."
  },
  {
   "property": "C92",
   "status": "partial",
   "theorems": [
    "Torchdyn.C92_fixed_backward",
    "Torchdyn.C92_translation",
    "Torchdyn.C92_backward_partial",
    "Torchdyn.C92_fixed",
    "Torchdyn.C92_backward_refuted"
   ],
   "note": "Proved on increasing grids for dopri5/tsit5, on both directions for euler/midpoint/rk4, and on decreasing grids for autonomous fields; false on decreasing grids for time-dependent fields under adaptive solvers (C92_backward_refuted): the initial step evaluates the field at negated times."
  },
  {
   "property": "C93",
   "status": "proved",
   "theorems": [
    "Torchdyn.C93_adaptive",
    "Torchdyn.C93_fixed"
   ],
   "note": "dopri5, tsit5 (all settings) and euler, midpoint, rk4. Exact real arithmetic."
  },
  {
   "property": "C94",
   "status": "proved",
   "theorems": [
    "Torchdyn.C94_reflection",
    "Torchdyn.C94_lorenz_symmetry",
    "Torchdyn.C94_rabinovich_symmetry",
    "Torchdyn.C94_rabinovich_dissipative",
    "Torchdyn.C94_vanDerPol_symmetry",
    "Torchdyn.C94_vanDerPol_nfe",
    "Torchdyn.C94_lorenz_bounded",
    "Torchdyn.C94_returns",
    "Torchdyn.C94_fourier_times",
    "Torchdyn.C94_fourier_displacement"
   ],
   "note": "C94_reflection is the general statement (any field that commutes with sign changes); Lorenz, VanDerPol and ODEProblem4 are modelled for samples of the width they are made for; termination of Lorenz, VanDerPol and ODEProblem4 (superlinear growth) is not claimed."
  },
  {
   "property": "C95",
   "status": "proved",
   "theorems": [
    "Torchdyn.C95_index_bounds",
    "Torchdyn.C95_forward",
    "Torchdyn.C95_size",
    "Torchdyn.C95_translation",
    "Torchdyn.C95_init_zero",
    "Torchdyn.C95_half_unused",
    "Torchdyn.C95_errors"
   ],
   "note": "conv2d is modelled entrywise with zero padding and stride; other options of conv2d are not used by the code."
  },
  {
   "property": "C96",
   "status": "partial",
   "theorems": [
    "Torchdyn.C96_rows_partial",
    "Torchdyn.C96_unknown_keyword",
    "Torchdyn.C96_unknown_refuted",
    "Torchdyn.C96_samples_refuted",
    "Torchdyn.C96_logo",
    "Torchdyn.C96_diffeqml",
    "Torchdyn.C96_forwards"
   ],
   "note": "spirals returns 2n points, the Gaussian sets n per component, diffeqml has no labels, unknown names give None (C96_samples_refuted, C96_unknown_refuted). LSODA and the kernel density estimate are parameters."
  },
  {
   "property": "C97",
   "status": "proved",
   "theorems": [
    "Torchdyn.C97_log_det",
    "Torchdyn.C97_density",
    "Torchdyn.C97_normalised"
   ],
   "note": "Liouville formula for exact solutions of the CNF equation (flow Jacobian exists and its determinant is exp of minus the change of column 0), change of variables for every measurable set, and normalisation for Lipschitz networks. About the differential equation the module defines; the numerical solution of it is the subject of the order theorems."
  },
  {
   "property": "C98",
   "status": "partial",
   "theorems": [
    "Torchdyn.C98_accuracy",
    "Torchdyn.C98_hyperEuler_second_order",
    "Torchdyn.C98_forward_exact",
    "Torchdyn.C98_backward_refuted",
    "Torchdyn.C98_accuracy_local",
    "Torchdyn.C98_hyperEuler_second_order_local"
   ],
   "note": "Proved on increasing grids for all three hypersolvers (error bound) and second order of HyperEuler with the leading residual, for Lipschitz fields and, in C98_accuracy_local and C98_hyperEuler_second_order_local, for smooth ones without Lipschitz constants. False on decreasing grids (C98_backward_refuted): odeint negates the field and the times but not the hypernet, so HyperMidpoint doubles the error that it removes on increasing grids."
  },
  {
   "property": "C99",
   "status": "proved",
   "theorems": [
    "Torchdyn.C99_stationary",
    "Torchdyn.C99_solvable",
    "Torchdyn.C99_converged",
    "Torchdyn.C99_contractive",
    "Torchdyn.C99_accuracy"
   ],
   "note": "LBFGS is an arbitrary optimiser with the stated convergence; the field is evaluated at the old time as in the code (C11), which enters the accuracy bound through M1."
  },
  {
   "property": "C100",
   "status": "proved",
   "theorems": [
    "Torchdyn.C100_converges",
    "Torchdyn.C100_rate"
   ],
   "note": "Pathwise convergence for every continuous path and rate h^a for H\u00f6lder paths, for euler, eulerHeun, milstein_ito and milstein_stratonovich. Constant diffusion of the shape of the state; exact real arithmetic."
  },
  {
   "property": "C101",
   "status": "proved",
   "theorems": [
    "Torchdyn.C101_local_convergence"
   ],
   "note": "Both Broyden methods without line search; the updates are shown to be bounded-deterioration updates of the (inverse) Jacobian, including the regularised denominators. The default line search stalls (C73). The pseudo-inverse of the Jacobian is a parameter assumed to be an inverse; it is one near the root (exists_inverse_near)."
  },
  {
   "property": "C102",
   "status": "proved",
   "theorems": [
    "Torchdyn.C102_descent",
    "Torchdyn.C102_convex_rate"
   ],
   "note": "Descent for every Lipschitz gradient and O(1/t) rate for convex energies, on whole odeint calls."
  },
  {
   "property": "C103",
   "status": "partial",
   "theorems": [
    "Torchdyn.C103_no_overshoot_partial",
    "Torchdyn.C103_ratio_partial",
    "Torchdyn.C103_power_partial",
    "Torchdyn.C103_lost_refuted"
   ],
   "note": "False in float32 (C103_lost_refuted): the step to the end of the interval can overshoot by one unit in the last place, then the final state is lost whatever the field and solver, and with the interpolator IndexError is raised. Proved: if no landing overshoots (any arithmetic), for grids of positive times with ratio at most two (any number of bits), and for intervals from a nonnegative time to a power of two. Rounding without overflow or subnormal numbers."
  },
  {
   "property": "C104",
   "status": "proved",
   "theorems": [
    "Torchdyn.C104_stable",
    "Torchdyn.C104_initial_state"
   ],
   "note": "One theorem over three perturbations at once (initial state, field, arithmetic of the steps), for euler, midpoint and rk4 on every non-decreasing separated grid; the constants are those of the exact flow. Non-vacuity: a fixed-point Euler solver on a quantised sine field."
  },
  {
   "property": "C105",
   "status": "proved",
   "theorems": [
    "Torchdyn.C105_log_likelihood"
   ],
   "note": "Exact trace, networks acting per sample, no Lipschitz condition (the flow has to exist on the interval); exact real arithmetic. The bound is stated for the solver's steps on every grid however fine; that these are what the call returns is stated for the grids odeint accepts (no two times close in the sense of torch.isclose)."
  },
  {
   "property": "C106",
   "status": "partial",
   "theorems": [
    "Torchdyn.C106_euler",
    "Torchdyn.C106_midpoint",
    "Torchdyn.C106_rk4_partial",
    "Torchdyn.C106_rk4_time_refuted"
   ],
   "note": "euler and midpoint for all fields; rk4 for autonomous fields, refuted (C106_rk4_time_refuted) for time-dependent ones. Exact real arithmetic."
  },
  {
   "property": "C107",
   "status": "partial",
   "theorems": [
    "Torchdyn.C107_euler",
    "Torchdyn.C107_midpoint",
    "Torchdyn.C107_rk4_partial",
    "Torchdyn.C107_rk4_time_refuted"
   ],
   "note": "euler and midpoint for all fields, rk4 for autonomous ones (C107_rk4_time_refuted: on x' = \u03b8 t its gradients are not even of second order). Loss on the last state plus an integral loss; exact real arithmetic; vector-Jacobian products as torch.autograd.grad is documented to return them. The bound is stated for the solver's steps on every grid however fine; that these are what the call returns is stated for the grids odeint accepts (no two times close in the sense of torch.isclose)."
  },
  {
   "property": "C108",
   "status": "partial",
   "theorems": [
    "Torchdyn.C108_rk4_time_refuted",
    "Torchdyn.C108_euler",
    "Torchdyn.C108_midpoint",
    "Torchdyn.C108_rk4_partial"
   ],
   "note": "Proved with order 1 for euler and 2 for midpoint (time-dependent fields included) and 4 for rk4 on autonomous fields; for time-dependent fields rk4 is not of fourth order (C108_rk4_time_refuted), so the full statement is false of the code."
  },
  {
   "property": "C109",
   "status": "partial",
   "theorems": [
    "Torchdyn.C109_euler",
    "Torchdyn.C109_midpoint",
    "Torchdyn.C109_rk4_partial",
    "Torchdyn.C109_rk4_time_refuted"
   ],
   "note": "Proved with order 1 for euler and 2 for midpoint (time-dependent fields and losses included) and 4 for rk4 on autonomous fields and integral losses; for time-dependent fields rk4 is not of fourth order (C109_rk4_time_refuted: not even of second order). The bound is stated for the solver's steps on every grid however fine; that these are what the call returns is stated for the grids odeint accepts (no two times close in the sense of torch.isclose)."
  },
  {
   "property": "C110",
   "status": "proved",
   "theorems": [
    "Torchdyn.C110_rk4",
    "Torchdyn.C110_augmented",
    "Torchdyn.C110_gradients"
   ],
   "note": "C110_rk4: first order, uniformly over nearby initial states, for every C1 time-dependent field. C110_augmented: fourth order when time is a state component. C110_gradients: first-order adjoint gradients. An example shows on x'=t that the first-order rate is attained and the remedy works. The bound is stated for the solver's steps on every grid however fine; that these are what the call returns is stated for the grids odeint accepts (no two times close in the sense of torch.isclose)."
  },
  {
   "property": "C111",
   "status": "proved",
   "theorems": [
    "Torchdyn.C111_alf"
   ],
   "note": "C111_alf, through the run-level description of odeint_symplectic (C69_fixed_partial) and a Gronwall argument for the pair (state, h times velocity). Examples: the rotation field; equidistant grids meet the gap condition. The bound is stated for the solver's steps on every grid however fine; that these are what the call returns is stated for the grids odeint accepts (no two times close in the sense of torch.isclose)."
  },
  {
   "property": "C112",
   "status": "proved",
   "theorems": [
    "Torchdyn.C112_linear",
    "Torchdyn.C112_unstable"
   ],
   "note": "C112_linear: closed form of every state of the run. C112_unstable: lower bound of the norm for a < 0. Example: x' = -3x with step 1/4 gives (81/80) 2^-k - (1/80) (-2)^k."
  },
  {
   "property": "C113",
   "status": "proved",
   "theorems": [
    "Torchdyn.C113_parareal",
    "Torchdyn.C113_lipschitz",
    "Torchdyn.C113_euler_rk4"
   ],
   "note": "C113_parareal: the bound in terms of Lipschitz constants of the coarse map and of the fine-coarse difference. C113_lipschitz, C113_euler_rk4: the constants for Lipschitz fields. The bound is zero at nodes m <= k, which is C38."
  },
  {
   "property": "C114",
   "status": "proved",
   "theorems": [
    "Torchdyn.C114_mean",
    "Torchdyn.C114_second_moment",
    "Torchdyn.C114_stability",
    "Torchdyn.C114_schemes"
   ],
   "note": "Mean, second moment and mean-square stability of Euler-Maruyama through sdeint, and the mean of all four schemes on linear SDEs; Brownian paths enter as increments with the moments of a Brownian motion (a Gaussian witness is constructed)."
  },
  {
   "property": "C115",
   "status": "partial",
   "theorems": [
    "Torchdyn.C115_names",
    "Torchdyn.C115_fixed",
    "Torchdyn.C115_tsit5",
    "Torchdyn.C115_unknown",
    "Torchdyn.C115_short",
    "Torchdyn.C115_list_partial",
    "Torchdyn.C115_list_refuted",
    "Torchdyn.C115_matrix"
   ],
   "note": "Names, unknown names, short and two-dimensional time spans proved; that lists work as t_span is refuted (decreasing lists, lists of numbers or scalars)."
  },
  {
   "property": "C116",
   "status": "proved",
   "theorems": [
    "Torchdyn.C116_strong"
   ],
   "note": "sdeint with euler against sdeint on a refinement along the same path; BrownianSteps is what the proof uses of a Brownian motion, brownianSteps_of_brownian derives it from Mathlib's IsPreBrownianReal, and a process meeting it on a grid is constructed in the example"
  },
  {
   "property": "C117",
   "status": "proved",
   "theorems": [
    "Torchdyn.C117_limit"
   ],
   "note": "the limit is the L2 limit over dyadic refinements; that it solves the stochastic integral equation is not stated, as there is no stochastic integral to state it with. The hypotheses are met by L\u00e9vy's construction (levy_brownianSteps)"
  },
  {
   "property": "C118",
   "status": "proved",
   "theorems": [
    "Torchdyn.C118_methods",
    "Torchdyn.C118_names",
    "Torchdyn.C118_attributes",
    "Torchdyn.C118_unknown",
    "Torchdyn.C118_objects",
    "Torchdyn.C118_adaptive",
    "Torchdyn.C118_forward"
   ],
   "note": "the constructor and the attribute look-ups are modelled; C38-C41 and C113 give what the parareal run returns"
  },
  {
   "property": "C119",
   "status": "partial",
   "theorems": [
    "Torchdyn.C119_base_refuted",
    "Torchdyn.C119_construct",
    "Torchdyn.C119_assigned",
    "Torchdyn.C119_fixed_partial",
    "Torchdyn.C119_adaptive_partial",
    "Torchdyn.C119_no_step",
    "Torchdyn.C119_stepping_class_refuted"
   ],
   "note": "Proved for DiffEqSolver and SolverTemplate (fixed: the trajectory of the step; adaptive: the run of a built-in solver with the same data) and for a missing step. False for BaseExplicit and BaseImplicit, which cannot be instantiated, and for an unknown stepping class, for which odeint silently returns None."
  },
  {
   "property": "C120",
   "status": "partial",
   "theorems": [
    "Torchdyn.C120_all_tolerances_refuted",
    "Torchdyn.C120_finitely_many_evaluations",
    "Torchdyn.C120_tolerance_refuted",
    "Torchdyn.C120_tolerance_tsit5_refuted",
    "Torchdyn.C120_reliable_partial",
    "Torchdyn.C120_decay_partial"
   ],
   "note": "False as stated: for all tolerances there is a polynomial field in t alone on which both solvers return the initial state while the solution moves arbitrarily far (C120_tolerance_refuted), and there is one smooth field on which this happens for all tolerances at once (C120_all_tolerances_refuted). Proved: the bound for runs with reliable estimates, and reliability for dopri5 on all diagonal decaying linear fields. Exact real arithmetic."
  },
  {
   "property": "C121",
   "status": "partial",
   "theorems": [
    "Torchdyn.C121_names",
    "Torchdyn.C121_error_weights",
    "Torchdyn.C121_objects",
    "Torchdyn.C121_reuse",
    "Torchdyn.C121_problem_partial",
    "Torchdyn.C121_problem_refuted",
    "Torchdyn.C121_reuse_refuted",
    "Torchdyn.C121_rk4_scaled",
    "Torchdyn.C121_rk4_problem_refuted",
    "Torchdyn.C121_rk4_name",
    "Torchdyn.C121_adaptive_problem_refuted"
   ],
   "note": "By name in odeint (and for an object built with the type of the state) every coefficient is the exact one up to two roundings, and repeated use with one type changes nothing (proved). False of the code through ODEProblem/NeuralODE and multiple shooting, which build the tableau in float32 and only widen it (C121_problem_refuted), and after one float32 call with a float64 object (C121_reuse_refuted); the effect on solutions is exact: a factor 1+2^-25 on every rk4 increment, a drift 3/2^27 (dopri5) or 7/2^29 (tsit5) on constant fields whatever the tolerance."
  },
  {
   "property": "C122",
   "status": "partial",
   "theorems": [
    "Torchdyn.C122_forward",
    "Torchdyn.C122_object_refuted",
    "Torchdyn.C122_adjoint_partial",
    "Torchdyn.C122_interpolated_refuted",
    "Torchdyn.C122_other"
   ],
   "note": "Which calls construct a problem, and that the forward pass uses solver/atol/rtol, is proved. False of the code: solver_adjoint as an object raises KeyError (C122_object_refuted); with sensitivity='adjoint' the settings are the documented ones iff seminorm=True, the flag being ignored (C122_adjoint_partial); with 'interpolated_adjoint' solver_adjoint, atol_adjoint and rtol_adjoint are ignored (C122_interpolated_refuted)."
  },
  {
   "property": "C123",
   "status": "partial",
   "theorems": [
    "Torchdyn.C123_optimizable_partial",
    "Torchdyn.C123_not_parameter",
    "Torchdyn.C123_own",
    "Torchdyn.C123_optimizable_refuted",
    "Torchdyn.C123_second_problem_refuted",
    "Torchdyn.C123_gradients_partial",
    "Torchdyn.C123_frozen_refuted",
    "Torchdyn.C123_unused_refuted"
   ],
   "note": "Proved: a field without parameters gets the optimizable_params in order, a field with parameters keeps its own, every parameter receives its own piece of the gradient when none is frozen or unused. False of the code: optimizable_params are ignored when the field has a parameter, also the dummy one left by an earlier problem; a frozen parameter raises RuntimeError, an unused one of size other than 1 makes the backward pass raise."
  },
  {
   "property": "C124",
   "status": "partial",
   "theorems": [
    "Torchdyn.C124_half",
    "Torchdyn.C124_one_partial",
    "Torchdyn.C124_mean_partial",
    "Torchdyn.C124_euler_refuted",
    "Torchdyn.C124_stratonovich_bias_refuted",
    "Torchdyn.C124_stratonovich_refuted"
   ],
   "note": "strong order one half for all four names, strong order one for milstein_ito and eulerHeun, weak order one of the mean for all but milstein_stratonovich. The declared order 1 is refuted for euler (strong) and milstein_stratonovich (strong and weak)."
  },
  {
   "property": "C125",
   "status": "partial",
   "theorems": [
    "Torchdyn.C125_gradient",
    "Torchdyn.C125_terminal_partial",
    "Torchdyn.C125_exact",
    "Torchdyn.C125_rows",
    "Torchdyn.C125_rows_refuted"
   ],
   "note": "Error bound and exact case proved for fixed-step solvers (all rows) and for adaptive solvers with a loss on the last row; losses on other rows with adaptive solvers are refuted on a smooth field."
  },
  {
   "property": "C126",
   "status": "partial",
   "theorems": [
    "Torchdyn.C126_tested_partial",
    "Torchdyn.C126_parameter_gradient_refuted",
    "Torchdyn.C126_full_norm_rejects"
   ],
   "note": "False of the code: the always-on seminorm leaves the parameter gradient out of the error test; for one smooth field the computed parameter gradient is wrong by as much as one likes for all adjoint tolerances at once (C126_parameter_gradient_refuted), in a step that a test of all entries refuses (C126_full_norm_rejects). Proved: every step of every returning adjoint solve passes the test on state and cotangent. Exact real arithmetic."
  },
  {
   "property": "C127",
   "status": "partial",
   "theorems": [
    "Torchdyn.C127_affine",
    "Torchdyn.C127_local",
    "Torchdyn.C127_errors",
    "Torchdyn.C127_diagonal_partial",
    "Torchdyn.C127_per_sample_refuted",
    "Torchdyn.C127_per_sample_certified",
    "Torchdyn.C127_fast_diagonal_refuted"
   ],
   "note": "Proved for residuals that act on rows: affine ones with any matrix, nonlinear ones near a regular root, and the errors. False of the code for residuals that carry data per sample: batch_jacobian calls them on a single row, the result has shape (bs, bs, dims) and its slices differ (C127_per_sample_refuted); for broyden its diagonal is what was asked for (C127_diagonal_partial)."
  },
  {
   "property": "C128",
   "status": "partial",
   "theorems": [
    "Torchdyn.C128_terminates_partial",
    "Torchdyn.C128_origin_refuted"
   ],
   "note": "Proved for roots away from the origin, with a number of iterations that depends only on the tolerances. False of the code for roots at the origin: for linear residuals with alpha < 1 and x_rtol <= 1 (the defaults) the condition is never met (C128_origin_refuted)."
  },
  {
   "property": "C129",
   "status": "partial",
   "theorems": [
    "Torchdyn.C129_adjoint_partial",
    "Torchdyn.C129_interp_partial",
    "Torchdyn.C129_parameter_refuted",
    "Torchdyn.C129_state_refuted",
    "Torchdyn.C129_loss_refuted",
    "Torchdyn.C129_dummy_parameter",
    "Torchdyn.C129_misplaced_refuted"
   ],
   "note": "False of the code for fields or integral losses that do not use the state and for unused parameters of other than one element; proved which error each raises and that all other cases give the adjoint equation with zeros."
  },
  {
   "property": "C130",
   "status": "partial",
   "theorems": [
    "Torchdyn.C130_euler",
    "Torchdyn.C130_midpoint",
    "Torchdyn.C130_rk4",
    "Torchdyn.C130_hyper",
    "Torchdyn.C130_save_at",
    "Torchdyn.C130_ieuler_refuted",
    "Torchdyn.C130_ieuler_values",
    "Torchdyn.C130_ieuler_exact_refuted",
    "Torchdyn.C130_euler_converges",
    "Torchdyn.C130_midpoint_converges",
    "Torchdyn.C130_rk4_converges_partial"
   ],
   "note": "False of the code for ieuler, whose steps are new leaves of the graph; proved exact for euler, midpoint, rk4 and the hypersolvers, with convergence to the gradient of the solution for euler, midpoint and (autonomous fields) rk4. The bound is stated for the solver's steps on every grid however fine; that these are what the call returns is stated for the grids odeint accepts (no two times close in the sense of torch.isclose)."
  },
  {
   "property": "C131",
   "status": "partial",
   "theorems": [
    "Torchdyn.C131_values",
    "Torchdyn.C131_event_refuted",
    "Torchdyn.C131_gradient_refuted",
    "Torchdyn.C131_gradient_partial",
    "Torchdyn.C131_quiet_gradient"
   ],
   "note": "Values in the graph equal the values without, for dopri5 and tsit5. The gradient claim is refuted: at every event seen the state before the jump is the state before the step or has derivative zero (C131_event_refuted), with a concrete run where the gradient is zero and the derivative is not (C131_gradient_refuted). C131_gradient_partial characterises what is recorded: the derivative along the run with the steps and jumps made at the given inputs, the located states being constants; C131_quiet_gradient: without events nothing is cut. Times and step sizes are constants of the graph in the model; FirstStepFixed (and, in the witness, the constant first step) makes this true of the code."
  },
  {
   "property": "C132",
   "status": "partial",
   "theorems": [
    "Torchdyn.C132_values",
    "Torchdyn.C132_gradient",
    "Torchdyn.C132_gradient_backward",
    "Torchdyn.C132_tolerance_refuted"
   ],
   "note": "Values and gradients are proved, for increasing and decreasing times, in a model in which times and step sizes are part of the graph. That tolerances control the error of the gradient is refuted by a run that is the same for all tolerances. Autograd being correct for the field and for init_step is part of the model."
  },
  {
   "property": "C133",
   "status": "partial",
   "theorems": [
    "Torchdyn.C133_state_units",
    "Torchdyn.C133_entry_units_refuted",
    "Torchdyn.C133_time_units_partial",
    "Torchdyn.C133_time_units_refuted"
   ],
   "note": "Proved: dopri5 and tsit5 commute with a change of the unit of the state (C133_state_units, all grids, settings and errors), euler, midpoint and rk4 with a change of the unit of time (C133_time_units_partial). Refuted: units that differ between entries (C133_entry_units_refuted: one atol for all entries) and the unit of time with dopri5 (C133_time_units_refuted: the initial step is 1e-6 in whatever unit, for all tolerances)."
  },
  {
   "property": "C134",
   "status": "proved",
   "theorems": [
    "Torchdyn.C134_mode",
    "Torchdyn.C134_euler_decay",
    "Torchdyn.C134_midpoint_decay",
    "Torchdyn.C134_rk4_decay",
    "Torchdyn.C134_euler_oscillation",
    "Torchdyn.C134_midpoint_oscillation",
    "Torchdyn.C134_rk4_oscillation",
    "Torchdyn.C134_hnn_euler"
   ],
   "note": "C134_mode gives the amplitude of every linear mode after k steps exactly; the decay and oscillation theorems give the exact limits of h for euler, midpoint and rk4; C134_hnn_euler applies it to the HNN of the model."
  },
  {
   "property": "C135",
   "status": "partial",
   "theorems": [
    "Torchdyn.C135_noise_axis_refuted",
    "Torchdyn.C135_diagonal"
   ],
   "note": "Diagonal noise, i.e. all tensors of the shape of the state: proved for all shapes, solver names, grids and errors (C135_diagonal). For diffusions with an axis for the noise components (general, scalar, additive) the claim is refuted: sdeint raises for all of them (C135_noise_axis_refuted)."
  },
  {
   "property": "C136",
   "status": "partial",
   "theorems": [
    "Torchdyn.C136_fourier_partial",
    "Torchdyn.C136_polynomial_partial",
    "Torchdyn.C136_rbf_partial",
    "Torchdyn.C136_chebychev_partial",
    "Torchdyn.C136_chebychev_refuted",
    "Torchdyn.C136_chebychev_one_partial",
    "Torchdyn.C136_init"
   ],
   "note": "Exact gradients proved for Fourier, Polynomial (positive argument) and the fixed radial basis functions (away from the center), and for the coefficients of Chebychev; refuted for Chebychev at every degree of at least two and every argument: dilation, shift and depth receive no gradient. C136_init: at initialisation only the coefficients receive one."
  },
  {
   "property": "C137",
   "status": "partial",
   "theorems": [
    "Torchdyn.C137_frozen_partial",
    "Torchdyn.C137_gradient_refuted"
   ],
   "note": "Refuted: the control is detached. C137_frozen_partial proves what is recorded instead, the derivative with the control held fixed, for euler, midpoint and rk4."
  },
  {
   "property": "C138",
   "status": "partial",
   "theorems": [
    "Torchdyn.C138_renamed_time_refuted",
    "Torchdyn.C138_odeint",
    "Torchdyn.C138_ode_problem_partial",
    "Torchdyn.C138_neural_ode_partial",
    "Torchdyn.C138_refuted"
   ],
   "note": "True of odeint for all twelve systems (C138_odeint) and of ODEProblem and NeuralODE for Lorenz and VanDerPol (C138_ode_problem_partial, C138_neural_ode_partial). False of the ten others: their parameter is called s, standardize_vf_call_signature looks for the name t, and no call of an ODEProblem or NeuralODE around them returns (C138_refuted); the same for every field whose time parameter has another name (C138_renamed_time_refuted)."
  },
  {
   "property": "C139",
   "status": "partial",
   "theorems": [
    "Torchdyn.C139_expanded_partial",
    "Torchdyn.C139_shape_partial",
    "Torchdyn.C139_raises_partial",
    "Torchdyn.C139_scalar_refuted",
    "Torchdyn.C139_save_at_refuted"
   ],
   "note": "Proved for all shapes without save_at (C139_shape_partial, C139_raises_partial), the expansion for all save_at (C139_expanded_partial; for rk4 the state has an axis); false of rk4 with zero-dimensional states, on which every field of the same shape raises (C139_scalar_refuted), and false with a save_at that leaves out the initial time (C139_save_at_refuted). Fixed-step methods euler, midpoint, rk4."
  },
  {
   "property": "C140",
   "status": "partial",
   "theorems": [
    "Torchdyn.C140_types_partial",
    "Torchdyn.C140_values",
    "Torchdyn.C140_float64_refuted",
    "Torchdyn.C140_scalar_refuted",
    "Torchdyn.C140_fixed",
    "Torchdyn.C140_wider"
   ],
   "note": "Proved: dopri5/tsit5 when the grid is not wider than the state and the state has an axis (C140_types_partial), the fixed-step solvers for all grids (C140_fixed), the values for fields that accept every type (C140_values). False with a float64 grid and a float32 state as soon as the first step reaches the second time (C140_float64_refuted), and of zero-dimensional states (C140_scalar_refuted)."
  },
  {
   "property": "C141",
   "status": "partial",
   "theorems": [
    "Torchdyn.C141_euler",
    "Torchdyn.C141_midpoint",
    "Torchdyn.C141_rk4_partial",
    "Torchdyn.C141_rk4_refuted"
   ],
   "note": "C141_euler (order 1) and C141_midpoint (order 2), time-dependent fields and losses included; C141_rk4_partial: order 1 for rk4; C141_rk4_refuted: no higher order for rk4, even for autonomous fields, since the backward equations along the spline depend on time. The spline of torchcde is assumed to be the natural cubic spline, whose existence is proved. The bound is stated for the solver's steps on every grid however fine; that these are what the call returns is stated for the grids odeint accepts (no two times close in the sense of torch.isclose)."
  },
  {
   "property": "C142",
   "status": "partial",
   "theorems": [
    "Torchdyn.C142_resource_partial",
    "Torchdyn.C142_quiet_partial",
    "Torchdyn.C142_dwell_partial",
    "Torchdyn.C142_active_refuted",
    "Torchdyn.C142_close_refuted"
   ],
   "note": "Refuted: with a callback that is active everywhere (C142_active_refuted) and for a ramp reset within event_tol of its last reset (C142_close_refuted) the loop never ends, whatever j_span. Proved for bounded fields and persistent events when nothing fires (C142_quiet_partial), when jumps consume a resource (C142_resource_partial), and when the dwell time after each jump exceeds event_tol (C142_dwell_partial)."
  },
  {
   "property": "C143",
   "status": "partial",
   "theorems": [
    "Torchdyn.C143_near_partial",
    "Torchdyn.C143_near_tsit5_partial",
    "Torchdyn.C143_spurious_refuted"
   ],
   "note": "Proved for dopri5 (and tsit5 with the constant 7.59), fields bounded by M, persistent events and spans of at most 4096 tolerances: every jump is within event_tol in time and 1.65 M event_tol in each component of a point at which the callback is first active. False in general (C143_spurious_refuted): callbacks are tested at the end of the trial step, before its error test, so on x'=-1e7 x, x0=1e-9 with the default tolerances a guard at x>=1 triggers a jump at t=0 although the solution decays."
  },
  {
   "property": "C144",
   "status": "proved",
   "theorems": [
    "Torchdyn.C144_logger"
   ],
   "note": "Model of the logger dictionary threaded through the loop; permanent_log, which nothing calls, is not modelled."
  },
  {
   "property": "C145",
   "status": "partial",
   "theorems": [
    "Torchdyn.C145_raises_refuted"
   ],
   "note": "False for every input (C145_raises_refuted): dense_output passes the times as the path and the path as the times, so torchcde raises ValueError (RuntimeError from permute when the solution has not three dimensions). torchcde is a parameter; what is assumed of it is that it checks the number of dimensions of its arguments."
  },
  {
   "property": "C146",
   "status": "partial",
   "theorems": [
    "Torchdyn.C146_hnn_drift_partial",
    "Torchdyn.C146_gnf_descent",
    "Torchdyn.C146_exact_refuted"
   ],
   "note": "Drift of order p proved for euler, midpoint and rk4 on all energies with p+1 continuous derivatives, as long as the exact solution exists; GNF energies decrease up to C h^p (C146_gnf_descent). Exact conservation is false on every step (C146_exact_refuted): on the harmonic oscillator each euler and midpoint step multiplies the energy by 1+h^2, 1+h^4/4 and each rk4 step by 1-h^6/72+h^8/576."
  },
  {
   "property": "C147",
   "status": "partial",
   "theorems": [
    "Torchdyn.C147_divergence",
    "Torchdyn.C147_forward",
    "Torchdyn.C147_fixed",
    "Torchdyn.C147_adaptive",
    "Torchdyn.C147_hutch_mean_partial",
    "Torchdyn.C147_hutch_refuted",
    "Torchdyn.C147_odd_refuted"
   ],
   "note": "Proved for the default estimator and an even number of columns: zero divergence, first column exactly constant for euler, midpoint, rk4, dopri5, tsit5, data columns as without the CNF (fixed step). False with the Hutchinson estimator (C147_hutch_refuted; only the mean is zero, C147_hutch_mean_partial) and for an odd number of columns (C147_odd_refuted). Autograd is assumed to connect the outputs to the inputs: for energies linear in the inputs torch raises instead of returning zero."
  },
  {
   "property": "C148",
   "status": "proved",
   "theorems": [
    "Torchdyn.C148_dopri5_checkpoints",
    "Torchdyn.C148_dopri5_gradients"
   ],
   "note": "Losses on the last output and weighted losses over all outputs; no integral loss; no Lipschitz condition. The order is in the gaps of the grid: at a fixed grid the tolerances of the adjoint solve do not control the parameter gradient (C126). Exact real arithmetic; autograd gives exact derivatives."
  },
  {
   "property": "C149",
   "status": "proved",
   "theorems": [
    "Torchdyn.C149_clock_run",
    "Torchdyn.C149_initial",
    "Torchdyn.C149_holding_times",
    "Torchdyn.C149_arrivals",
    "Torchdyn.C149_returns",
    "Torchdyn.C149_law",
    "Torchdyn.C149_law_dopri5",
    "Torchdyn.C149_law_tsit5"
   ],
   "note": "One state, one clock entry with constant rate (clocks with state-dependent rate are not covered), bounded field, span at most 4096 event tolerances (the bisection stops after 100 iterations, C80), j_span > 0. For tsit5 the rate is r up to the relative error 1e-84 of its tableau. Exact real arithmetic; the draws of expdist.sample are independent exponential variables."
  },
  {
   "property": "C150",
   "status": "partial",
   "theorems": [
    "Torchdyn.C150_single_partial",
    "Torchdyn.C150_batch_refuted"
   ],
   "note": "Refuted: RuntimeError for every number of entries other than one (C150_batch_refuted). Holds for tensors with one entry (C150_single_partial)."
  },
  {
   "property": "C151",
   "status": "partial",
   "theorems": [
    "Torchdyn.C151_sample_partial",
    "Torchdyn.C151_dilution_refuted",
    "Torchdyn.C151_sample_refuted"
   ],
   "note": "Refuted: the error norm is a mean over the whole batch, so samples at rest dilute the error of a moving one. For every bounded field and all tolerances, a large enough batch is integrated with the steps 1e-6, 1e-5, \u2026, 0.888889 whatever the field is; a concrete field is integrated to any accuracy alone and with an error as large as one likes in a batch. Proved part: each sample is advanced by steps within the tolerances multiplied by the square root of the batch size."
  },
  {
   "property": "C152",
   "status": "proved",
   "theorems": [
    "Torchdyn.C152_run",
    "Torchdyn.C152_energy",
    "Torchdyn.C152_returns"
   ],
   "note": "Over the reals, for spans of at most 4096 event tolerances (the number of halvings the bisection has). C152_run: what is returned; C152_energy: energy along every such run; C152_returns: the call returns (for spans that end before the bounces accumulate; events that follow each other within event_tol: C142)."
  },
  {
   "property": "C153",
   "status": "proved",
   "theorems": [
    "Torchdyn.C153_dopri5",
    "Torchdyn.C153_euler",
    "Torchdyn.C153_midpoint",
    "Torchdyn.C153_rk4",
    "Torchdyn.C153_bijective",
    "Torchdyn.C153_bijective_backward",
    "Torchdyn.C153_large_step_refuted",
    "Torchdyn.C153_exact_refuted"
   ],
   "note": "Round trips over accepted grids to order 1, 2, 4 (rk4 on autonomous fields), 5, uniformly over solutions in a bounded region; bijectivity with two-sided Lipschitz constants for small steps. The two limits in the statement are C153_exact_refuted and C153_large_step_refuted. tsit5 is not covered: its decimals satisfy the order conditions up to rounding only (C04)."
  },
  {
   "property": "C154",
   "status": "proved",
   "theorems": [
    "Torchdyn.C154_dopri5",
    "Torchdyn.C154_dopri5_backward"
   ],
   "note": "Increasing and decreasing grids."
  },
  {
   "property": "C155",
   "status": "proved",
   "theorems": [
    "Torchdyn.C155_dopri5_equilibrium",
    "Torchdyn.C155_contraction",
    "Torchdyn.C155_equilibrium",
    "Torchdyn.C155_accuracy",
    "Torchdyn.C155_dopri5",
    "Torchdyn.C155_local"
   ],
   "note": "contraction and equilibrium: time-dependent fields on any real inner product space, with the step restriction 20 L^2 h <= mu; accuracy: autonomous fields in finite dimension with p continuous derivatives; C155_local and C155_dopri5 need no Lipschitz constant and are uniform over horizons"
  },
  {
   "property": "C156",
   "status": "proved",
   "theorems": [
    "Torchdyn.C156_convergence",
    "Torchdyn.C156_dopri5"
   ],
   "note": "Exponential convergence of states and energies on whole odeint calls, for every strongly convex energy."
  }
 ]
}