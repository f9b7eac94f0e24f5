import Verif.Props.Symplectic
import Verif.Props.AdaptiveTermination
import Verif.Props.OneStep

/-!
C85: `odeint_symplectic` on decreasing time grids.
-/

set_option linter.unusedSectionVars false
set_option linter.unusedSimpArgs false

namespace Torchdyn

open Spec

variable {ι : Type} [Fintype ι]

/-- One asynchronous leapfrog step of `(position, velocity)`: half a drift, reflection of the velocity about the field at the
midpoint, half a drift. -/
noncomputable def leapfrog (f : ℝ → (ι → ℝ) → ι → ℝ) (xv : (ι → ℝ) × (ι → ℝ)) (t dt : ℝ) : (ι → ℝ) × (ι → ℝ) :=
  let mid := xv.1 + (dt / 2) • xv.2
  let v' := (2 : ℝ) • f (t + dt / 2) mid - xv.2
  (mid + (dt / 2) • v', v')

theorem alfStep_leapfrog (f : ℝ → (ι → ℝ) → ι → ℝ) (xv : (ι → ℝ) × (ι → ℝ)) (t dt : ℝ) :
    ∃ k e, alfStep (m := Except PyErr) false (pureField f) xv t dt none () =
      ((pure (.three k (leapfrog f xv t dt) e) : Except PyErr _)) := by
  refine ⟨none, none, ?_⟩
  have e1 : (1 / 2 : ℝ) * dt = dt / 2 := by ring
  have e2 : ∀ a b : ι → ℝ, ((2 : ℝ) * 1) • (a - b) + b = (2 : ℝ) • a - b := by intro a b; module
  simp only [leapfrog, alfStep, firstStage, pureField, bind, Except.bind, pure, Except.pure, e1, e2, Bool.false_eq_true,
    if_false]

theorem symplecticAlf_backward (fuel : Nat) (f : ℝ → (ι → ℝ) → ι → ℝ) (x : (ι → ℝ) × (ι → ℝ)) (t0 t1 : ℝ) (rest : List ℝ)
    (hd : t1 < t0) (hsep : Separated (t0 :: t1 :: rest)) (atol rtol : ℝ) (all : Bool) :
    odeintSymplecticAlf (m := Except PyErr) fuel (pureField f) (some 1) x (t0 :: t1 :: rest) false atol rtol all [] =
      .ok (some ((t0 :: t1 :: rest).map (fun t => -t),
        gridStates (leapfrog (fun t x => -f (-t) x)) x ((t0 :: t1 :: rest).map (fun t => -t)))) := by
  have h := fixedOdeint_default (m := Except PyErr)
    (fun xv t dt => alfStep false (pureField (fun t x => -f (-t) x)) xv t dt none ()) (pure ()) _
    (fun xv t dt => let ⟨k, e, h⟩ := alfStep_leapfrog (fun t x => -f (-t) x) xv t dt; ⟨k, e, h⟩) x
    ((t0 :: t1 :: rest).map (fun t => -t)) (by simp) ((separated_neg _).2 hsep)
  rw [tickN_pure] at h
  have hrev : reverseField (pureField (m := Except PyErr) f) = pureField (fun t x => -f (-t) x) := rfl
  simp only [odeintSymplecticAlf, odeintDirection, getItem, List.getElem?_cons_succ, List.getElem?_cons_zero, pure_bind,
    if_pos hd, symplecticOrder, Bool.false_eq_true, if_false, hrev, h]
  simp [bind, Except.bind, pure, Except.pure]

/-- The leapfrog step for the reversed field, from the velocity-reversed end point, undoes the step. -/
theorem leapfrog_undo (f : ℝ → (ι → ℝ) → ι → ℝ) (xv : (ι → ℝ) × (ι → ℝ)) (t t' : ℝ) :
    leapfrog (fun t x => -f (-t) x) ((leapfrog f xv t (t' - t)).1, -(leapfrog f xv t (t' - t)).2) (-t') (-t - -t') =
      (xv.1, -xv.2) := by
  obtain ⟨x, v⟩ := xv
  have e1 : (-t - -t') / 2 = (t' - t) / 2 := by ring
  have e2 : -(-t' + (t' - t) / 2) = t + (t' - t) / 2 := by ring
  simp only [leapfrog, e1, e2]
  have e3 : x + ((t' - t) / 2) • v +
      ((t' - t) / 2) • ((2 : ℝ) • f (t + (t' - t) / 2) (x + ((t' - t) / 2) • v) - v) +
      ((t' - t) / 2) • -((2 : ℝ) • f (t + (t' - t) / 2) (x + ((t' - t) / 2) • v) - v) = x + ((t' - t) / 2) • v := by module
  rw [e3]
  refine Prod.ext ?_ ?_ <;> simp only <;> module

/-- The trajectory read backwards, velocities reversed, is the trajectory of the reversed field. -/
theorem gridStates_leapfrog_reverse (f : ℝ → (ι → ℝ) → ι → ℝ) (x : (ι → ℝ) × (ι → ℝ)) (ts : List ℝ)
    (sol : List ((ι → ℝ) × (ι → ℝ))) (h : IsTrajectory (leapfrog f) x ts sol) (xe ve : ι → ℝ)
    (hlast : sol.getLast? = some (xe, ve)) :
    IsTrajectory (leapfrog (fun t x => -f (-t) x)) (xe, -ve) (ts.reverse.map (fun t => -t))
      (sol.reverse.map fun p => (p.1, -p.2)) := by
  refine ⟨by simp [h.length_eq], ?_, ?_⟩
  · rw [List.getElem?_map, ← List.head?_eq_getElem?, List.head?_reverse, hlast]; rfl
  · intro k s s' y hs hs' hy
    rw [List.getElem?_map, Option.map_eq_some_iff] at hs hs' hy
    obtain ⟨t', ht', rfl⟩ := hs
    obtain ⟨t, ht, rfl⟩ := hs'
    obtain ⟨p', hp', rfl⟩ := hy
    have hk : k + 1 < ts.length := by
      have := (List.getElem?_eq_some_iff.1 ht).1
      simpa using this
    rw [List.getElem?_reverse (by omega)] at ht ht'
    rw [List.getElem?_reverse (by rw [h.length_eq]; omega)] at hp'
    rw [List.getElem?_map, List.getElem?_reverse (by rw [h.length_eq]; omega)]
    rw [h.length_eq] at hp' ⊢
    have ek : ts.length - 1 - k = (ts.length - 1 - (k + 1)) + 1 := by omega
    obtain ⟨p, hp⟩ : ∃ p, sol[ts.length - 1 - (k + 1)]? = some p :=
      ⟨_, List.getElem?_eq_getElem (by rw [h.length_eq]; omega)⟩
    rw [ek] at ht' hp'
    have hn := h.next _ _ _ _ ht ht' hp
    rw [hp'] at hn
    cases hn
    rw [hp, leapfrog_undo]
    rfl

/-- C85 for the leapfrog solver, the part that holds. Integrating forwards over any separated grid and then backwards over the
reversed grid, *starting the backward run from the end point with its velocity negated*, retraces the forward run exactly: the
positions of the forward run in reverse order, with negated velocities. The returned times are the negated times. Missing: the
backward run from the end point as the forward run returned it, which is what the user has (refuted below). -/
theorem C85_leapfrog_retrace_partial (fuel : Nat) (f : ℝ → (ι → ℝ) → ι → ℝ) (x : (ι → ℝ) × (ι → ℝ)) (ts : List ℝ)
    (hinc : ts.Pairwise (· < ·)) (hlen : 2 ≤ ts.length) (hsep : Separated ts) (atol rtol : ℝ) (all : Bool) :
    ∃ sol xe ve, odeintSymplecticAlf (m := Except PyErr) fuel (pureField f) (some 1) x ts false atol rtol all [] =
        .ok (some (ts, sol)) ∧ sol.getLast? = some (xe, ve) ∧
      odeintSymplecticAlf (m := Except PyErr) fuel (pureField f) (some 1) (xe, -ve) ts.reverse false atol rtol all [] =
        .ok (some (ts.reverse.map (fun t => -t), sol.reverse.map fun p => (p.1, -p.2))) := by
  obtain ⟨t0, t1, rest, rfl⟩ : ∃ t0 t1 rest, ts = t0 :: t1 :: rest := by
    match ts, hlen with
    | t0 :: t1 :: rest, _ => exact ⟨t0, t1, rest, rfl⟩
  have hd : t0 < t1 := (List.pairwise_cons.1 hinc).1 t1 (by simp)
  obtain ⟨sol, h1, h2⟩ := C69_fixed_partial fuel f x t0 t1 rest hd.le hsep atol rtol all
  have h2' : IsTrajectory (leapfrog f) x (t0 :: t1 :: rest) sol := h2
  have hne : sol ≠ [] := by
    rintro rfl
    have := h2.start
    simp at this
  obtain ⟨xe, ve, hl⟩ : ∃ xe ve, sol.getLast? = some (xe, ve) :=
    ⟨_, _, List.getLast?_eq_some_getLast hne⟩
  refine ⟨sol, xe, ve, h1, hl, ?_⟩
  have hr := gridStates_leapfrog_reverse f x _ sol h2' xe ve hl
  have hrev : (t0 :: t1 :: rest).reverse.Pairwise (· > ·) := by
    rw [List.pairwise_reverse]; exact hinc
  have hsepr : Separated (t0 :: t1 :: rest).reverse := by
    unfold Separated at hsep ⊢
    rw [List.pairwise_reverse]
    exact hsep.imp fun ⟨a, b⟩ => ⟨b, a⟩
  have hlr : 2 ≤ (t0 :: t1 :: rest).reverse.length := by rw [List.length_reverse]; exact hlen
  generalize (t0 :: t1 :: rest).reverse = us at hr hrev hsepr hlr
  match us, hlr with
  | u0 :: u1 :: us, _ =>
    rw [symplecticAlf_backward fuel f _ u0 u1 us ((List.pairwise_cons.1 hrev).1 u1 (by simp)) hsepr,
      ← hr.eq_gridStates (by simp)]

/-- The states on a decreasing grid: one per time point, the first the initial condition, each next one a leapfrog step for
the reversed field over the gap; the returned times are the negated ones. In particular the velocity half is *not* negated. -/
theorem C85_leapfrog_backward (fuel : Nat) (f : ℝ → (ι → ℝ) → ι → ℝ) (x : (ι → ℝ) × (ι → ℝ)) (t0 t1 : ℝ) (rest : List ℝ)
    (hd : t1 < t0) (hsep : Separated (t0 :: t1 :: rest)) (atol rtol : ℝ) (all : Bool) :
    ∃ sol, odeintSymplecticAlf (m := Except PyErr) fuel (pureField f) (some 1) x (t0 :: t1 :: rest) false atol rtol all [] =
        .ok (some ((t0 :: t1 :: rest).map (fun t => -t), sol)) ∧
      IsTrajectory (fun xv t dt =>
        let mid := xv.1 + (dt / 2) • xv.2
        let v' := (2 : ℝ) • -f (-(t + dt / 2)) mid - xv.2
        (mid + (dt / 2) • v', v')) x ((t0 :: t1 :: rest).map (fun t => -t)) sol :=
  ⟨_, symplecticAlf_backward fuel f x t0 t1 rest hd hsep atol rtol all,
    gridStates_isTrajectory (leapfrog (fun t x => -f (-t) x)) x _ (by simp)⟩

/-- C85 is false of the code for the leapfrog solver: integrating `x' = x` from position 1 and velocity 1 (consistent, since
`f(1) = 1`) backwards over one unit of time moves the position *away*, to `-1/2` after passing `3/2`, although the exact
solution is `exp(-1)`; a forward run from 0 to 1 and back does not return. -/
theorem C85_leapfrog_refuted :
    (odeintSymplecticAlf (m := Except PyErr) 0 (pureField (fun _ (x : Fin 1 → ℝ) => x)) (some 1) (1, 1) [1, 0] false 0 0 false
        [] = .ok (some ([-1, 0], [(1, 1), (fun _ => -1 / 2, fun _ => -4)]))) ∧
    ¬ ∀ (f : ℝ → (Fin 1 → ℝ) → Fin 1 → ℝ) (x xe : (Fin 1 → ℝ) × (Fin 1 → ℝ)),
      odeintSymplecticAlf (m := Except PyErr) 0 (pureField f) (some 1) x [0, 1] false 0 0 false [] =
        .ok (some ([0, 1], [x, xe])) →
      ∃ ts, odeintSymplecticAlf (m := Except PyErr) 0 (pureField f) (some 1) xe [1, 0] false 0 0 false [] =
        .ok (some (ts, [xe, x])) := by
  have hs : Separated ([1, 0] : List ℝ) := by simp [Separated, Close]; norm_num
  have hs' : Separated ([0, 1] : List ℝ) := by simp [Separated, Close]; norm_num
  constructor
  · rw [symplecticAlf_backward 0 _ _ 1 0 [] (by norm_num) hs]
    simp only [List.map_cons, List.map_nil, neg_zero, gridStates, leapfrog]
    norm_num
    constructor <;> funext i <;> norm_num
  · intro hall
    obtain ⟨sol, h1, h2⟩ := C69_fixed_partial 0 (fun _ (x : Fin 1 → ℝ) => x) (1, 1) 0 1 [] (by norm_num) hs' 0 0 false
    have h2' := (show IsTrajectory (leapfrog (fun _ (x : Fin 1 → ℝ) => x)) (1, 1) [0, 1] sol from h2).eq_gridStates (by simp)
    subst h2'
    obtain ⟨ts, h⟩ := hall _ _ _ h1
    rw [symplecticAlf_backward 0 _ _ 1 0 [] (by norm_num) hs] at h
    simp only [List.map_cons, List.map_nil, neg_zero, gridStates, leapfrog, Except.ok.injEq, Option.some.injEq,
      Prod.mk.injEq, List.cons.injEq] at h
    have := congrFun h.2.2.1.1 0
    norm_num at this

/-! ### Other adaptive solvers -/

theorem symplectic_backward (f : ℝ → (ι → ℝ) → ι → ℝ) (x : ι → ℝ) (t0 t1 : ℝ) (rest : List ℝ) (hd : t1 < t0)
    (solver : Solver (Except PyErr) ℝ (ι → ℝ) Bool) (hadp : solver.adaptive = true) (atol rtol : ℝ) (all : Bool)
    (saveAt : List ℝ) :
    ∃ dt, 0 < dt ∧ ∀ fuel,
      odeintSymplectic fuel (pureField f) (some 2) x (t0 :: t1 :: rest) solver atol rtol all saveAt =
        adaptiveOdeint (odeintCfg (pureField (fun t x => -f (-t) x)) solver all atol rtol Finset.univ none false) fuel
          (f (-t0) x) x dt ((t0 :: t1 :: rest).map (fun t => -t)) := by
  obtain ⟨dt, hdt, hi⟩ := initStep_pos f (f (-t0) x) x (-t0) solver.order atol rtol
  refine ⟨dt, hdt, fun fuel => ?_⟩
  have hk : pureField (m := Except PyErr) f (-t0) x = .ok (f (-t0) x) := rfl
  simp only [odeintSymplectic, odeintDirection, getItem, List.getElem?_cons_succ, List.map_cons, symplecticOrder,
    List.getElem?_cons_zero, pure_bind, if_pos hd, hadp, if_true, hk]
  simp only [bind, Except.bind, hi]
  rfl

/-- One `dopri5` step for the constant field `-c`, given the first stage `k1`. -/
theorem dopri5_const_step (c x : ι → ℝ) (t dt : ℝ) (k1 : ι → ℝ) (all : Bool) :
    ∃ e st, (dopri5Solver (Except PyErr) ℝ (ι → ℝ) Bool).step (fun _ _ => .ok (-c)) x t dt (some k1) all =
      .ok (.four (-c) (x - dt • c + (dt * (35 / 384)) • (k1 + c)) e st) := by
  have : x - dt • c + (dt * (35 / 384)) • (k1 + c) =
      x + dt • ((35 / 384 : ℝ) • k1 + (0 : ℝ) • (-c) + (500 / 1113 : ℝ) • (-c) + (125 / 192 : ℝ) • (-c) +
        (-2187 / 6784 : ℝ) • (-c) + (11 / 84 : ℝ) • (-c)) := by module
  rw [this]
  exact ⟨_, _, rfl⟩

/-- C85 for the other adaptive solvers, false of the code: on a decreasing grid the first stage handed to the solver is
`f(-t0, x)` instead of `-f(t0, x)`. For a constant field `c ≠ 0`, on which `dopri5` is exact, the run on any decreasing grid
returns (for suitable fuel), and whenever it returns, the final state is *not* the exact one `x + (T - t0) c`: it is off by
`(35/192) dt c`, `dt > 0` being the first accepted step. -/
theorem C85_adaptive_refuted (c x : ι → ℝ) (hc : c ≠ 0) (t0 t1 T : ℝ) (rest : List ℝ)
    (hdec : (t0 :: t1 :: rest).Pairwise (· > ·)) (hT : (t0 :: t1 :: rest).getLast? = some T) (atol rtol : ℝ) (ha : 0 < atol)
    (hr : 0 ≤ rtol) (all : Bool) (saveAt : List ℝ) :
    (∃ fuel r, odeintSymplectic fuel (pureField (fun _ _ => c)) (some 2) x (t0 :: t1 :: rest)
        (dopri5Solver (Except PyErr) ℝ (ι → ℝ) Bool) atol rtol all saveAt = .ok (some r)) ∧
    ∀ fuel ts xs, odeintSymplectic fuel (pureField (fun _ _ => c)) (some 2) x (t0 :: t1 :: rest)
        (dopri5Solver (Except PyErr) ℝ (ι → ℝ) Bool) atol rtol all saveAt = .ok (some (ts, xs)) →
      ∃ dt : ℝ, 0 < dt ∧ xs.getLast? = some (x + (T - t0) • c + (35 / 192 * dt) • c) ∧
        x + (T - t0) • c + (35 / 192 * dt) • c ≠ x + (T - t0) • c := by
  obtain ⟨dt, hdt, hrun⟩ := symplectic_backward (fun _ _ => c) x t0 t1 rest
    (List.pairwise_cons.1 hdec |>.1 t1 (by simp)) (dopri5Solver (Except PyErr) ℝ (ι → ℝ) Bool) rfl atol rtol all saveAt
  have hinc : Increasing (-t0 :: -t1 :: rest.map (fun t => -t)) := increasing_neg hdec
  constructor
  · obtain ⟨E, hE⟩ := dopri5_errorLinear (ι := ι) all
    obtain ⟨fuel, ts, xs, h⟩ := adaptive_terminates (dopri5_fsalSolver all) E hE (by norm_num [dopri5Solver]) rfl rfl rfl
      (fun _ _ => -c) ‖c‖ (fun _ _ i => by rw [Pi.neg_apply, abs_neg]; exact norm_le_pi_norm c i) c x
      (fun i => norm_le_pi_norm c i) hdt hinc atol rtol ha hr none false Finset.univ
    exact ⟨fuel, _, (hrun fuel).trans h⟩
  · intro fuel ts xs h
    rw [hrun] at h
    choose e st hstep using fun y t d k => dopri5_const_step c y t d k all
    obtain ⟨-, -, -, -, had⟩ := (dopri5_fsalSolver all).out (fun _ (_ : ι → ℝ) => -c) atol rtol Finset.univ none false
    obtain ⟨r, hr1, hr2⟩ := adaptiveOdeint_run
      (cfg := odeintCfg (pureField (fun _ _ => -c)) (dopri5Solver (Except PyErr) ℝ (ι → ℝ) Bool) all atol rtol
        Finset.univ none false)
      (out := fun y t d k => (-c, y - d • c + (d * (35 / 384)) • (k + c), e y t d k, st y t d k))
      (fun y t d k => hstep y t d k) had hinc hdt c x
      (fun s => ((s.t = -t0 ∧ s.x = x ∧ s.k1 = c) ∨
          (s.k1 = -c ∧ ∃ d : ℝ, 0 < d ∧ s.x = x - (s.t + t0) • c + (35 / 192 * d) • c)) ∧
        (s.t ∈ (-t1 :: rest.map (fun t => -t)) → s.sol.getLast? = some s.x))
      ⟨Or.inl ⟨rfl, rfl, rfl⟩, fun _ => rfl⟩ (by
        intro T' s s' d _ ⟨hP, hsol⟩ hinv _ hit _
        by_cases hacc : (odeintCfg (pureField (fun _ _ => -c)) (dopri5Solver (Except PyErr) ℝ (ι → ℝ) Bool) all atol rtol
          Finset.univ none false).errRatio s.x (s.x - d • c + (d * (35 / 384)) • (s.k1 + c)) (e s.x s.t d s.k1) ≤ 1
        · obtain ⟨a1, a2, a3, -, -, mids, -, -, a4⟩ := hit.accepted hacc
          refine ⟨Or.inr ⟨a3, ?_⟩, fun hm => ?_⟩
          · rcases hP with ⟨b1, b2, b3⟩ | ⟨b1, d', hd', b2⟩
            · refine ⟨d, hit.dt_pos, ?_⟩
              rw [a2, a1, b1, b2, b3]
              module
            · refine ⟨d', hd', ?_⟩
              rw [a2, a1, b2, b1]
              module
          · rw [a4, if_pos (Or.inl (a1 ▸ hm)), a2]
            simp
        · obtain ⟨a1, a2, a3, -, -, a4⟩ := hit.rejected hacc
          rw [a1, a2, a3, a4]
          exact ⟨hP, hsol⟩) fuel
    · rw [List.map_cons, List.map_cons] at h
      rw [h] at hr1
      cases hr1
      obtain ⟨s, -, h2, ⟨h3, h4⟩, h5, -⟩ := hr2 ts xs rfl
      have hlast : T = -s.t := by
        have e1 : (t1 :: rest).getLast? = some T := by rw [← hT]; simp [List.getLast?_cons]
        have e2 := congrArg (Option.map (fun t => -t)) e1
        rw [← List.getLast?_map, List.map_cons, h5] at e2
        simp only [Option.map_some, Option.some.injEq] at e2
        linarith
      have hlt : T < t0 := (List.pairwise_cons.1 hdec).1 T (by
        apply List.mem_of_getLast?
        rw [← hT]; simp [List.getLast?_cons])
      rcases h3 with ⟨h3, -⟩ | ⟨-, d, hd, hx⟩
      · linarith
      · refine ⟨d, hd, ?_, ?_⟩
        · rw [← h2, h4 (List.mem_of_getLast? h5), hx, hlast]
          congr 1
          module
        · intro hh
          have h0 : (35 / 192 * d) • c = 0 := add_eq_left.1 hh
          rcases smul_eq_zero.1 h0 with h0 | h0
          · linarith
          · exact hc h0

/-- Non-vacuity: a concrete decreasing grid. -/
example : ∃ fuel r, odeintSymplectic fuel (pureField (fun _ (_ : Fin 1 → ℝ) => fun _ => (1 : ℝ))) (some 2) 0 [1, 1 / 2, 0]
    (dopri5Solver (Except PyErr) ℝ (Fin 1 → ℝ) Bool) (1 / 1000) (1 / 1000) false [] = .ok (some r) :=
  (C85_adaptive_refuted (fun _ => 1) 0 (fun h => one_ne_zero (congrFun h (0 : Fin 1))) 1 (1 / 2) 0 [0]
    (by simp; norm_num) rfl _ _ (by norm_num) (by norm_num) false []).1

end Torchdyn
