import Verif.Proofs.Shooting
import Verif.Props.FixedStep

/-!
Properties C38–C42: parallel-in-time solvers.
-/

set_option linter.unusedSectionVars false
set_option linter.unusedSimpArgs false

namespace Torchdyn

open Spec

/-! ### The built-in coarse and fine methods -/

section builtin

variable (K A : Type) [Field K]

/-- `Euler` as a solver class. -/
def eulerFamily : SolverFamily (Except PyErr) K A := fun W _ _ => eulerSolver (Except PyErr) K W A
/-- `Midpoint` as a solver class. -/
def midpointFamily : SolverFamily (Except PyErr) K A := fun W _ _ => midpointSolver (Except PyErr) K W A
/-- `RungeKutta4` as a solver class. -/
def rk4Family : SolverFamily (Except PyErr) K A := fun W _ _ => rk4Solver (Except PyErr) K W A

variable {K A} {V : Type} [AddCommGroup V] [Module K V]

theorem euler_rowwise (f : K → V → V) (args : A) :
    Rowwise (eulerFamily K A) args f (fun x t dt => x + dt • f t x) where
  single _ _ _ := ⟨none, none, rfl⟩
  stack _ _ _ _ := ⟨none, none, rfl⟩

theorem midpoint_rowwise (f : K → V → V) (args : A) :
    Rowwise (midpointFamily K A) args f
      (fun x t dt => x + dt • f (t + (1 / 2 : K) * dt) (x + ((1 / 2 : K) * dt) • f t x)) where
  single _ _ _ := ⟨none, none, rfl⟩
  stack _ _ _ _ := ⟨none, none, rfl⟩

theorem rk4_rowwise (f : K → V → V) (args : A) : Rowwise (rk4Family K A) args f (rk4Update f) where
  single _ _ _ := ⟨none, none, rfl⟩
  stack _ _ _ _ := ⟨none, none, rfl⟩

end builtin

variable {K V A : Type} [Field K] [LinearOrder K] [IsStrictOrderedRing K] [AddCommGroup V] [Module K V]
  {coarseS fineS : SolverFamily (Except PyErr) K A} {args : A} {f : K → V → V} {φc φf : V → K → K → V}

theorem sequential_get (G : V → V) (x : V) (n m : ℕ) (h : m < n) :
    (sequential G x n)[m]? = some (G^[m] x) := by
  simp [sequential, h]

theorem eq_sequential {G : V → V} {x : V} {n : ℕ} {B : List V} (hl : B.length = n)
    (h : ∀ m < n, B[m]? = some (G^[m] x)) : B = sequential G x n := by
  apply List.ext_getElem?
  intro m
  by_cases hm : m < n
  · rw [h m hm, sequential_get G x n m hm]
  · rw [List.getElem?_eq_none (by omega), List.getElem?_eq_none (by simp [sequential]; omega)]

theorem iterate_succ_out (G : V → V) (x : V) (m : ℕ) (hm : 1 ≤ m) : G (G^[m - 1] x) = G^[m] x := by
  rw [← Function.iterate_succ_apply' G, show (m - 1).succ = m by omega]

/-- **C38.** Parareal, any initial guess `B0` (one row per time, the first being `x`), any coarse and
fine fixed-step methods: `odeint_mshooting` makes `maxiter + 1` iterations, after which the shooting
states `0, …, maxiter + 1` are those of the sequential fine solution, whose step `G` is the fine method
over `linspace(0, t_span[1] - t_span[0], fine_steps)`. -/
theorem C38_parareal (hc : Rowwise coarseS args f φc) (hf : Rowwise fineS args f φf) (x : V)
    (t0 t1 : K) (rest : List K) (B0 : List V) (hlen : B0.length = (t0 :: t1 :: rest).length)
    (hx : B0[0]? = some x) (fineSteps maxiter : ℕ) (h2 : 2 ≤ fineSteps)
    (hsep : Separated (uniformGrid 0 (t1 - t0) fineSteps)) (hmax : maxiter < (t0 :: t1 :: rest).length) :
    ∃ B, odeintMsZero coarseS fineS args (fun t x => .ok (f t x)) (rowField f) x (t0 :: t1 :: rest)
        (some B0) fineSteps maxiter = .ok (t0 :: t1 :: rest, B) ∧
      B.length = (t0 :: t1 :: rest).length ∧
      ∀ m ≤ maxiter + 1, m < (t0 :: t1 :: rest).length →
        B[m]? = some ((fun y => propagate φf y (uniformGrid 0 (t1 - t0) fineSteps))^[m] x) := by
  have hgrid : uniformGrid 0 (t1 - t0) fineSteps = linspace0 (t1 - t0) fineSteps := by
    simp [uniformGrid, linspace0]
  rw [hgrid] at hsep ⊢
  set G : V → V := fun y => propagate φf y (linspace0 (t1 - t0) fineSteps)
  set C : V → V := fun y => propagate φc y (linspace0 (t1 - t0) fineSteps)
  obtain ⟨B, e, h1, h3⟩ := msZeroLoop_ok C G (fun i B => ∀ m ≤ i, m < (t0 :: t1 :: rest).length →
      B[m]? = some (G^[m] x)) (t0 :: t1 :: rest).length
    (by
      intro i B B' hl hi h hp m hm hmN
      rcases Nat.lt_or_ge m (i + 1) with hlt | hge
      · rw [hp.keep m (by omega)]
        exact h m (by omega) hmN
      · have hmi : m = i + 1 := by omega
        subst hmi
        have hi' := h i le_rfl hi
        rw [hp.next (i + 1) (by omega) (by omega) (G^[i] x) (G^[i] x)
          (by rw [Nat.add_sub_cancel, hp.keep i le_rfl]; exact hi') hi', sub_self, zero_add,
          ← Function.iterate_succ_apply' G])
    (maxiter + 1) 0 B0 hlen (by omega) (by
      intro m hm _
      have : m = 0 := by omega
      subst this
      exact hx)
  refine ⟨B, ?_, h1, by rw [zero_add] at h3; exact h3⟩
  simp only [odeintMsZero, bind, Except.bind, pure, Except.pure,
    msZero_eq hc hf t0 t1 rest B0 fineSteps maxiter h2 hsep]
  rw [e]

/-- **C38.** With at least `len(t_span) - 1` iterations the whole result is the sequential fine
solution. -/
theorem C38_converged (hc : Rowwise coarseS args f φc) (hf : Rowwise fineS args f φf) (x : V)
    (t0 t1 : K) (rest : List K) (B0 : List V) (hlen : B0.length = (t0 :: t1 :: rest).length)
    (hx : B0[0]? = some x) (fineSteps maxiter : ℕ) (h2 : 2 ≤ fineSteps)
    (hsep : Separated (uniformGrid 0 (t1 - t0) fineSteps)) (hmax : maxiter < (t0 :: t1 :: rest).length)
    (hall : (t0 :: t1 :: rest).length ≤ maxiter + 1 + 1) :
    odeintMsZero coarseS fineS args (fun t x => .ok (f t x)) (rowField f) x (t0 :: t1 :: rest)
        (some B0) fineSteps maxiter = .ok (t0 :: t1 :: rest,
      sequential (fun y => propagate φf y (uniformGrid 0 (t1 - t0) fineSteps)) x
        (t0 :: t1 :: rest).length) := by
  obtain ⟨B, e, h1, h3⟩ := C38_parareal hc hf x t0 t1 rest B0 hlen hx fineSteps maxiter h2 hsep hmax
  rw [e, eq_sequential h1 (fun m hm => h3 m (by omega) hm)]

/-- **C38.** The same with the default initial guess, which is the coarse solution on `t_span`. -/
theorem C38_default_guess (hc : Rowwise coarseS args f φc) (hf : Rowwise fineS args f φf) (x : V)
    (t0 t1 : K) (rest : List K) (hdir : t0 ≤ t1) (hspan : Separated (t0 :: t1 :: rest))
    (fineSteps maxiter : ℕ) (h2 : 2 ≤ fineSteps)
    (hsep : Separated (uniformGrid 0 (t1 - t0) fineSteps)) (hmax : maxiter < (t0 :: t1 :: rest).length) :
    ∃ B, odeintMsZero coarseS fineS args (fun t x => .ok (f t x)) (rowField f) x (t0 :: t1 :: rest)
        none fineSteps maxiter = .ok (t0 :: t1 :: rest, B) ∧
      B.length = (t0 :: t1 :: rest).length ∧
      ∀ m ≤ maxiter + 1, m < (t0 :: t1 :: rest).length →
        B[m]? = some ((fun y => propagate φf y (uniformGrid 0 (t1 - t0) fineSteps))^[m] x) := by
  obtain ⟨sol, h, hl, h0, -⟩ := C12_trajectory (solver := coarseS V) (f := f) (args := args) hc.single x t0 t1 rest
    hdir hspan
  obtain ⟨B, e, hB⟩ := C38_parareal hc hf x t0 t1 rest sol hl h0 fineSteps maxiter h2 hsep hmax
  refine ⟨B, ?_, hB⟩
  rw [← e]
  have h' : odeintFixed (fun t x => (.ok (f t x) : Except PyErr V)) x (t0 :: t1 :: rest) (coarseS V) [] args =
      .ok (t0 :: t1 :: rest, sol) := h
  simp only [odeintMsZero, h', bind, Except.bind, pure, Except.pure]

/-- **C38.** The sequential fine solution is a fixed point, for any number of iterations. -/
theorem C38_fixed_point (hc : Rowwise coarseS args f φc) (hf : Rowwise fineS args f φf) (x : V)
    (t0 t1 : K) (rest : List K) (fineSteps maxiter : ℕ) (h2 : 2 ≤ fineSteps)
    (hsep : Separated (uniformGrid 0 (t1 - t0) fineSteps)) (hmax : maxiter < (t0 :: t1 :: rest).length) :
    let fine := sequential (fun y => propagate φf y (uniformGrid 0 (t1 - t0) fineSteps)) x
      (t0 :: t1 :: rest).length
    odeintMsZero coarseS fineS args (fun t x => .ok (f t x)) (rowField f) x (t0 :: t1 :: rest)
        (some fine) fineSteps maxiter = .ok (t0 :: t1 :: rest, fine) := by
  have hgrid : uniformGrid 0 (t1 - t0) fineSteps = linspace0 (t1 - t0) fineSteps := by
    simp [uniformGrid, linspace0]
  rw [hgrid] at hsep ⊢
  set G : V → V := fun y => propagate φf y (linspace0 (t1 - t0) fineSteps)
  set C : V → V := fun y => propagate φc y (linspace0 (t1 - t0) fineSteps)
  intro fine
  obtain ⟨B, e, h1, h3⟩ := msZeroLoop_ok C G (fun i B => ∀ m < (t0 :: t1 :: rest).length,
      B[m]? = some (G^[m] x)) (t0 :: t1 :: rest).length
    (by
      intro i B B' hl hi h hp m
      induction m with
      | zero => intro hm; rw [hp.keep 0 (by omega)]; exact h 0 hm
      | succ m ih =>
        intro hm
        rcases Nat.lt_or_ge i (m + 1) with hlt | hge
        · rw [hp.next (m + 1) hlt (by omega) _ _ (ih (by omega)) (h m (by omega)), sub_self, zero_add,
            ← Function.iterate_succ_apply' G]
        · rw [hp.keep (m + 1) hge]; exact h _ hm)
    (maxiter + 1) 0 fine (by simp [fine, sequential]) (by omega)
    (fun m hm => sequential_get G x _ m hm)
  simp only [odeintMsZero, bind, Except.bind, pure, Except.pure,
    msZero_eq hc hf t0 t1 rest fine fineSteps maxiter h2 hsep]
  rw [e, eq_sequential h1 h3]

/-- Non-vacuity of C38: `x' = x` on four points, coarse and fine `euler`, two fine steps, a wrong guess,
one iteration: the first two states are right, the others are not. -/
example : odeintMsZero (K := ℚ) (V := ℚ) (eulerFamily ℚ Unit) (rk4Family ℚ Unit) () (fun _ x => .ok x)
    (rowField (fun _ x => x)) 1 [0, 1, 2, 3] (some [1, 0, 0, 0]) 2 0 =
    .ok ([0, 1, 2, 3], [1, 65 / 24, 65 / 12, 65 / 6]) := by decide +kernel

/-! ### C39 -/

/-- **C39 (partial: fewer iterations than time points).** One state per time point is returned when
`maxiter < len(t_span)`.

Missing: larger `maxiter`, which fails (`C39_maxiter_refuted`). -/
theorem C39_maxiter_partial (hc : Rowwise coarseS args f φc) (hf : Rowwise fineS args f φf) (x : V)
    (t0 t1 : K) (rest : List K) (hdir : t0 ≤ t1) (hspan : Separated (t0 :: t1 :: rest))
    (fineSteps maxiter : ℕ) (h2 : 2 ≤ fineSteps)
    (hsep : Separated (uniformGrid 0 (t1 - t0) fineSteps)) (hmax : maxiter < (t0 :: t1 :: rest).length) :
    ∃ B, odeintMsZero coarseS fineS args (fun t x => .ok (f t x)) (rowField f) x (t0 :: t1 :: rest)
        none fineSteps maxiter = .ok (t0 :: t1 :: rest, B) ∧ B.length = (t0 :: t1 :: rest).length := by
  obtain ⟨B, e, h, -⟩ := C38_default_guess hc hf x t0 t1 rest hdir hspan fineSteps maxiter h2 hsep hmax
  exact ⟨B, e, h⟩

/-- **C39 (refutation).** When `maxiter ≥ len(t_span)` the call raises `IndexError`, whatever the field,
the methods and the guess. (The default `maxiter = 4` fails on every grid of at most 4 points.) -/
theorem C39_maxiter_refuted (hc : Rowwise coarseS args f φc) (hf : Rowwise fineS args f φf) (x : V)
    (t0 t1 : K) (rest : List K) (B0 : List V) (hlen : B0.length = (t0 :: t1 :: rest).length)
    (fineSteps maxiter : ℕ) (h2 : 2 ≤ fineSteps)
    (hsep : Separated (uniformGrid 0 (t1 - t0) fineSteps)) (hmax : (t0 :: t1 :: rest).length ≤ maxiter) :
    odeintMsZero coarseS fineS args (fun t x => .ok (f t x)) (rowField f) x (t0 :: t1 :: rest)
      (some B0) fineSteps maxiter = .error .indexError := by
  have hgrid : uniformGrid 0 (t1 - t0) fineSteps = linspace0 (t1 - t0) fineSteps := by
    simp [uniformGrid, linspace0]
  rw [hgrid] at hsep
  simp only [odeintMsZero, bind, Except.bind, pure, Except.pure,
    msZero_eq hc hf t0 t1 rest B0 fineSteps maxiter h2 hsep]
  rw [msZeroLoop_error _ _ _ _ 0 B0 hlen (by omega) (by omega)]

/-- The default arguments `fine_steps=2, maxiter=4` on a grid of four points. -/
example : odeintMsZero (K := ℚ) (V := ℚ) (eulerFamily ℚ Unit) (rk4Family ℚ Unit) () (fun _ x => .ok x)
    (rowField (fun _ x => x)) 1 [0, 1, 2, 3] none 2 4 = .error .indexError := by decide +kernel

/-! ### C40 -/

/-- **C40 (refutation, general form).** Beyond the first two points the grid is not looked at: two grids
with the same first two points and the same number of points give the same states. -/
theorem C40_grid_ignored (x : V) (t0 t1 : K) (rest rest' : List K) (hlen : rest.length = rest'.length)
    (B0 : List V) (fineSteps maxiter : ℕ) (r r' : List K × List V)
    (h : odeintMsZero coarseS fineS args (fun t x => .ok (f t x)) (rowField f) x (t0 :: t1 :: rest)
      (some B0) fineSteps maxiter = .ok r)
    (h' : odeintMsZero coarseS fineS args (fun t x => .ok (f t x)) (rowField f) x (t0 :: t1 :: rest')
      (some B0) fineSteps maxiter = .ok r') : r.2 = r'.2 := by
  have e : msZero coarseS fineS args (fun t x => .ok (f t x)) (rowField f) (t0 :: t1 :: rest) B0 fineSteps
      maxiter = msZero coarseS fineS args (fun t x => .ok (f t x)) (rowField f) (t0 :: t1 :: rest') B0
      fineSteps maxiter := by
    unfold msZero
    simp only [getItem, List.getElem?_cons_succ, List.getElem?_cons_zero, pure_bind, List.length_cons, hlen]
  simp only [odeintMsZero, bind, Except.bind, pure, Except.pure] at h h'
  rw [e] at h
  cases hm : msZero coarseS fineS args (fun t x => .ok (f t x)) (rowField f) (t0 :: t1 :: rest') B0
      fineSteps maxiter with
  | error err => rw [hm] at h; cases h
  | ok B =>
    rw [hm] at h h'
    cases h
    cases h'
    rfl

/-- **C40 (refutation, concrete).** `x' = 1` from 0 on `t_span = [0, 1, 3]`, enough iterations: the state
returned for `t = 3` is 2. -/
theorem C40_nonuniform_refuted :
    odeintMsZero (K := ℚ) (V := ℚ) (eulerFamily ℚ Unit) (rk4Family ℚ Unit) () (fun _ _ => .ok 1)
      (rowField (fun _ _ => 1)) 0 [0, 1, 3] none 2 2 = .ok ([0, 1, 3], [0, 1, 2]) := by decide +kernel

theorem propagate_shift {W : Type} {φ : W → K → K → W} (hφ : ∀ x t dt, φ x t dt = φ x 0 dt) (c : K) (x : W)
    (ts : List K) : propagate φ x (ts.map (fun t => c + t)) = propagate φ x ts := by
  induction ts generalizing x with
  | nil => rfl
  | cons t ts ih =>
    cases ts with
    | nil => rfl
    | cons t' ts =>
      have := ih (φ x t (t' - t))
      simp only [List.map_cons] at this ⊢
      rw [propagate, propagate, add_sub_add_left_eq_sub, hφ x (c + t), ← hφ x t, this]

/-- **C40 (partial: uniform grids and methods that do not look at the time).** If all gaps of `t_span`
are equal and the fine step does not depend on the time (autonomous field), then after enough iterations
each returned state is the result of the fine method over the corresponding interval of `t_span`, split
into `fine_steps` points.

Missing: non-uniform grids (refuted above) and time-dependent fields (the sub-intervals are all
integrated as if they started at time 0). -/
theorem C40_uniform_partial (hc : Rowwise coarseS args f φc) (hf : Rowwise fineS args f φf)
    (hφ : ∀ x t dt, φf x t dt = φf x 0 dt) (x : V)
    (t0 t1 : K) (rest : List K) (hunif : ∀ (m : ℕ) (t t' : K), (t0 :: t1 :: rest)[m]? = some t →
      (t0 :: t1 :: rest)[m + 1]? = some t' → t' - t = t1 - t0)
    (B0 : List V) (hlen : B0.length = (t0 :: t1 :: rest).length)
    (hx : B0[0]? = some x) (fineSteps maxiter : ℕ) (h2 : 2 ≤ fineSteps)
    (hsep : Separated (uniformGrid 0 (t1 - t0) fineSteps)) (hmax : maxiter < (t0 :: t1 :: rest).length)
    (hall : (t0 :: t1 :: rest).length ≤ maxiter + 1 + 1) :
    ∃ B, odeintMsZero coarseS fineS args (fun t x => .ok (f t x)) (rowField f) x (t0 :: t1 :: rest)
        (some B0) fineSteps maxiter = .ok (t0 :: t1 :: rest, B) ∧ B[0]? = some x ∧
      ∀ (m : ℕ) (t t' : K) (y : V), (t0 :: t1 :: rest)[m]? = some t → (t0 :: t1 :: rest)[m + 1]? = some t' →
        B[m]? = some y → B[m + 1]? = some (propagate φf y (uniformGrid t t' fineSteps)) := by
  refine ⟨_, C38_converged hc hf x t0 t1 rest B0 hlen hx fineSteps maxiter h2 hsep hmax hall,
    sequential_get _ _ _ _ (by simp), ?_⟩
  intro m t t' y ht ht' hy
  have hm : m + 1 < (t0 :: t1 :: rest).length := (List.getElem?_eq_some_iff.1 ht').1
  rw [sequential_get _ _ _ _ (by omega)] at hy
  rw [sequential_get _ _ _ _ hm, Function.iterate_succ_apply', Option.some.inj hy]
  congr 1
  have : uniformGrid t t' fineSteps = (uniformGrid 0 (t1 - t0) fineSteps).map (fun s => t + s) := by
    simp only [uniformGrid, List.map_map, hunif m t t' ht ht', sub_zero]
    apply List.map_congr_left
    intro a _
    simp
  rw [this, propagate_shift hφ]

/-- Non-vacuity of `C40_uniform_partial` and `C38_converged`: `x' = x`, three points, a wrong guess. -/
example : odeintMsZero (K := ℚ) (V := ℚ) (eulerFamily ℚ Unit) (rk4Family ℚ Unit) () (fun _ x => .ok x)
    (rowField (fun _ x => x)) 1 [0, 1, 2] (some [1, 7, -3]) 2 1 =
    .ok ([0, 1, 2], [1, 65 / 24, (65 / 24) ^ 2]) := by
  rw [C38_converged (euler_rowwise (fun _ x => x) ()) (rk4_rowwise (fun _ x => x) ()) 1 0 1 [2] [1, 7, -3] rfl rfl
    2 1 le_rfl (by
      norm_num [Separated, uniformGrid, Close, List.range_succ]) (by norm_num) (by norm_num)]
  decide +kernel

/-! ### C41 -/

/-- **C41 (refutation, first form).** `msbackward` raises `IndexError` for every `maxiter ≥ 3` (the
default is 4), whatever the grid, the field and the guess. -/
theorem C41_default_refuted (hf : Rowwise fineS args f φf) (vjp : List K → V → V → V)
    (t0 t1 : K) (rest : List K) (B0 : List V) (hlen : B0.length = (t0 :: t1 :: rest).length)
    (fineSteps maxiter : ℕ) (h2 : 2 ≤ fineSteps)
    (hsep : Separated (uniformGrid 0 (t1 - t0) fineSteps)) (hmax : 3 ≤ maxiter) :
    msBackward vjp fineS args (rowField f) (t0 :: t1 :: rest) B0 fineSteps maxiter =
      .error .indexError := by
  have hgrid : uniformGrid 0 (t1 - t0) fineSteps = linspace0 (t1 - t0) fineSteps := by
    simp [uniformGrid, linspace0]
  rw [hgrid] at hsep
  rw [msBackward_eq hf vjp t0 t1 rest B0 fineSteps maxiter h2 hsep]
  obtain ⟨n, rfl⟩ : ∃ n, maxiter = n + 3 := ⟨maxiter - 3, by omega⟩
  generalize (fun y => propagate φf y (linspace0 (t1 - t0) fineSteps)) = G
  generalize vjp (linspace0 (t1 - t0) fineSteps) = J
  generalize (t0 :: t1 :: rest).length = N at *
  rcases msBackwardLoop_step J G N (n + 3) 0 B0 hlen with h | ⟨_, _, B1, l1, h⟩
  · exact h
  · rw [h]
    rcases msBackwardLoop_step J G N (n + 2) 1 B1 l1 with h | ⟨_, _, B2, l2, h⟩
    · exact h
    · rw [h]
      rcases msBackwardLoop_step J G N (n + 1) 2 B2 l2 with h | ⟨_, hN, B3, l3, h⟩
      · exact h
      · rw [h]
        rcases msBackwardLoop_step J G N n 3 B3 l3 with h | ⟨h3, _⟩
        · exact h
        · have := hN le_rfl
          omega

/-- **C41 (refutation, second form).** With `maxiter = 1` (two iterations) the sequential fine solution
is not a fixed point: started from it, the call returns, from the third row on, the fine solution
shifted by one interval. -/
theorem C41_fixed_point_refuted (hf : Rowwise fineS args f φf) (vjp : List K → V → V → V)
    (hvjp : ∀ l y, vjp l y 0 = 0) (x : V) (t0 t1 : K) (rest : List K) (fineSteps : ℕ) (h2 : 2 ≤ fineSteps)
    (hsep : Separated (uniformGrid 0 (t1 - t0) fineSteps)) :
    let G := fun y => propagate φf y (uniformGrid 0 (t1 - t0) fineSteps)
    ∃ B, msBackward vjp fineS args (rowField f) (t0 :: t1 :: rest)
      (sequential G x (t0 :: t1 :: rest).length) fineSteps 1 = .ok B ∧
      B.length = (t0 :: t1 :: rest).length ∧ B[0]? = some x ∧ B[1]? = some (G x) ∧
      ∀ m, 2 ≤ m → m < (t0 :: t1 :: rest).length → B[m]? = some (G^[m + 1] x) := by
  have hgrid : uniformGrid 0 (t1 - t0) fineSteps = linspace0 (t1 - t0) fineSteps := by
    simp [uniformGrid, linspace0]
  rw [hgrid] at hsep ⊢
  intro G
  rw [msBackward_eq hf vjp t0 t1 rest _ fineSteps 1 h2 hsep]
  have hN : 2 ≤ (t0 :: t1 :: rest).length := by simp
  generalize (t0 :: t1 :: rest).length = N at *
  have hl : (sequential G x N).length = N := by simp [sequential]
  obtain ⟨B1, l1, k1, n1, e1⟩ := msBackwardLoop_succ (vjp (linspace0 (t1 - t0) fineSteps)) G
    (sequential G x N) 0 1 (by omega) (by omega)
  have hB1 : ∀ m < N, B1[m]? = some (G^[m] x) := by
    intro m
    induction m with
    | zero => intro hm; rw [k1 0 le_rfl, sequential_get G x N 0 hm]
    | succ m ih =>
      intro hm
      rw [n1 (m + 1) (by omega) (by omega) _ _ _ (ih (by omega)) (sequential_get G x N m (by omega))
        (by rw [zero_add]; exact sequential_get G x N m (by omega))]
      rw [sub_self, hvjp]
      simp [Function.iterate_succ_apply']
  obtain ⟨B2, l2, k2, n2, e2⟩ := msBackwardLoop_succ (vjp (linspace0 (t1 - t0) fineSteps)) G B1 1 0
    (by omega) (by omega)
  rw [hl] at e1 l1
  rw [l1] at e2 l2 n2
  refine ⟨B2, ?_, l2, ?_, ?_, ?_⟩
  · rw [e1, e2]
    rfl
  · rw [k2 0 (by omega), hB1 0 (by omega)]; rfl
  · rw [k2 1 le_rfl, hB1 1 (by omega)]; rfl
  · intro m hm hmN
    have hprev : (B2[m - 1]?).isSome := by
      rw [List.getElem?_eq_getElem (by omega)]; rfl
    obtain ⟨p, hp⟩ := Option.isSome_iff_exists.1 hprev
    rw [n2 m (by omega) hmN p (G^[m - 1] x) (G^[m] x) hp (hB1 _ (by omega))
      (by rw [show 1 + (m - 1) = m by omega]; exact hB1 m hmN), if_neg (by omega), add_zero,
      Function.iterate_succ_apply']

/-- **C41 (partial: a single iteration).** With `maxiter = 0` the call succeeds and performs one sweep
`B'[m] = G(B[m-1]) + J_{B[m-1]}^T (B'[m-1] - B[m-1])` with `B'[0] = B[0]`; in particular the sequential
fine solution is a fixed point and the first two rows are always those of the fine solution.

Missing: more iterations (refuted above); and the correction uses the transposed Jacobian where Newton's
method has the Jacobian itself. -/
theorem C41_one_sweep_partial (hf : Rowwise fineS args f φf) (vjp : List K → V → V → V)
    (hvjp : ∀ l y, vjp l y 0 = 0) (x : V) (t0 t1 : K) (rest : List K) (B0 : List V)
    (hlen : B0.length = (t0 :: t1 :: rest).length) (hx : B0[0]? = some x)
    (fineSteps : ℕ) (h2 : 2 ≤ fineSteps) (hsep : Separated (uniformGrid 0 (t1 - t0) fineSteps)) :
    let G := fun y => propagate φf y (uniformGrid 0 (t1 - t0) fineSteps)
    ∃ B, msBackward vjp fineS args (rowField f) (t0 :: t1 :: rest) B0 fineSteps 0 = .ok B ∧
      B.length = (t0 :: t1 :: rest).length ∧ B[0]? = some x ∧ B[1]? = some (G x) ∧
      (∀ m p b, B[m]? = some p → B0[m]? = some b → m + 1 < (t0 :: t1 :: rest).length →
        B[m + 1]? = some (G b + vjp (uniformGrid 0 (t1 - t0) fineSteps) b (p - b))) ∧
      (B0 = sequential G x (t0 :: t1 :: rest).length → B = B0) := by
  have hgrid : uniformGrid 0 (t1 - t0) fineSteps = linspace0 (t1 - t0) fineSteps := by
    simp [uniformGrid, linspace0]
  rw [hgrid] at hsep ⊢
  intro G
  rw [msBackward_eq hf vjp t0 t1 rest _ fineSteps 0 h2 hsep]
  have hN : 2 ≤ (t0 :: t1 :: rest).length := by simp
  generalize (t0 :: t1 :: rest).length = N at *
  obtain ⟨B1, l1, k1, n1, e1⟩ := msBackwardLoop_succ (vjp (linspace0 (t1 - t0) fineSteps)) G B0 0 0
    (by omega) (by omega)
  have hnext : ∀ m p b, B1[m]? = some p → B0[m]? = some b → m + 1 < N →
      B1[m + 1]? = some (G b + vjp (linspace0 (t1 - t0) fineSteps) b (p - b)) := by
    intro m p b hp hb hm
    rw [n1 (m + 1) (by omega) (by omega) p b b hp hb (by rw [zero_add]; exact hb)]
    simp
  have h0 : B1[0]? = some x := by rw [k1 0 le_rfl, hx]
  rw [hlen] at e1 l1
  refine ⟨B1, by rw [e1]; rfl, l1, h0, ?_, hnext, ?_⟩
  · rw [hnext 0 x x h0 hx (by omega), sub_self, hvjp, add_zero]
  · intro hB0
    have : ∀ m < N, B1[m]? = some (G^[m] x) := by
      intro m
      induction m with
      | zero => intro _; exact h0
      | succ m ih =>
        intro hm
        rw [hnext m _ (G^[m] x) (ih (by omega)) (by rw [hB0]; exact sequential_get G x N m (by omega)) hm,
          sub_self, hvjp, add_zero, Function.iterate_succ_apply']
    rw [eq_sequential l1 this, hB0]

/-- Non-vacuity of C41: `x' = x`, three points, one Euler step per interval (whose Jacobian is 2). -/
example : msBackward (K := ℚ) (V := ℚ) (fun _ _ v => 2 * v) (eulerFamily ℚ Unit) () (rowField (fun _ x => x))
    [0, 1, 2] [1, 2, 4] 2 1 = .ok [1, 2, 8] := by decide +kernel

end Torchdyn
