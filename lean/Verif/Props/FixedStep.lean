import Verif.Proofs.FixedOdeint
import Verif.Props.Structure

/-!
Properties C12–C14, C16–C19 of `odeint` with fixed-step solvers.

Vector fields are arbitrary functions `f : K → V → V` run in the exception monad. `SteppedBy` says
which state update a solver object performs; it holds for the built-in solvers
(`euler_steppedBy`, …) and for any user-defined solver returning a 3-tuple.
-/

set_option linter.unusedSectionVars false
set_option linter.unusedSimpArgs false

namespace Torchdyn

open Spec

/-- On the field `f`, the `step` method of `solver` (called without `k1`) never raises and moves the
state `x` to `φ x t dt`. -/
def SteppedBy {K V A : Type} (solver : Solver (Except PyErr) K V A) (f : K → V → V) (args : A)
    (φ : V → K → K → V) : Prop :=
  ∀ x t dt, ∃ k e, solver.step (pureField f) x t dt none args = .ok (.three k (φ x t dt) e)

section builtin

variable {K V A : Type} [Field K] [AddCommGroup V] [Module K V]

theorem euler_steppedBy (f : K → V → V) (args : A) :
    SteppedBy (eulerSolver (Except PyErr) K V A) f args (fun x t dt => x + dt • f t x) :=
  fun _ _ _ => ⟨none, none, rfl⟩

theorem midpoint_steppedBy (f : K → V → V) (args : A) :
    SteppedBy (midpointSolver (Except PyErr) K V A) f args
      (fun x t dt => x + dt • f (t + (1 / 2 : K) * dt) (x + ((1 / 2 : K) * dt) • f t x)) :=
  fun _ _ _ => ⟨none, none, rfl⟩

/-- The update of `rk4`, as computed by the step run on its own. -/
def rk4Update (f : K → V → V) (x : V) (t dt : K) : V :=
  (rk4Step (m := Id) (constructRk4 K) (pureField f) x t dt none ()).newState

theorem rk4_steppedBy (f : K → V → V) (args : A) :
    SteppedBy (rk4Solver (Except PyErr) K V A) f args (rk4Update f) :=
  fun _ _ _ => ⟨none, none, rfl⟩

end builtin

section forward

variable {K V A : Type} [Field K] [LinearOrder K] [IsStrictOrderedRing K] [AddCommGroup V]

theorem odeintFixed_forward {f : K → V → V} {solver : Solver (Except PyErr) K V A} {args : A}
    (x : V) {t0 t1 : K} (rest saveAt : List K) (hdir : t0 ≤ t1) :
    odeintFixed (pureField f) x (t0 :: t1 :: rest) solver saveAt args =
      fixedOdeint torchIsclose (fun x t dt => solver.step (pureField f) x t dt none args) x
        (t0 :: t1 :: rest) saveAt := by
  simp only [odeintFixed, odeintDirection, getItem, List.getElem?_cons_succ,
    List.getElem?_cons_zero, pure_bind, if_neg (not_lt.2 hdir)]

theorem odeintFixed_backward {f : K → V → V} {solver : Solver (Except PyErr) K V A} {args : A}
    (x : V) {t0 t1 : K} (rest saveAt : List K) (hdir : t1 < t0) :
    odeintFixed (pureField f) x (t0 :: t1 :: rest) solver saveAt args =
      fixedOdeint torchIsclose
        (fun x t dt => solver.step (pureField (fun t x => -f (-t) x)) x t dt none args) x
        ((t0 :: t1 :: rest).map (fun t => -t)) saveAt := by
  simp only [odeintFixed, odeintDirection, getItem, List.getElem?_cons_succ,
    List.getElem?_cons_zero, pure_bind, if_pos hdir]
  rfl

theorem SteppedBy.tick {f : K → V → V} {solver : Solver (Except PyErr) K V A} {args : A}
    {φ : V → K → K → V} (h : SteppedBy solver f args φ) (x : V) (t dt : K) :
    ∃ k e, solver.step (pureField f) x t dt none args =
      (do (pure () : Except PyErr Unit); pure (.three k (φ x t dt) e)) := by
  obtain ⟨k, e, h⟩ := h x t dt
  exact ⟨k, e, by rw [h]; rfl⟩

theorem tickN_pure (n : Nat) : tickN (pure () : Except PyErr Unit) n = pure () := by
  induction n with
  | zero => rfl
  | succ n ih => rw [tickN, pure_bind, ih]

/-- **C12.** With a fixed-step solver and no `save_at`, `odeint` returns `t_span` itself and the
trajectory of the solver on it: one state per time point, the first is `x`, each next one is one
solver step from its predecessor over exactly the gap between the two time points. -/
theorem C12_trajectory {f : K → V → V} {solver : Solver (Except PyErr) K V A} {args : A}
    {φ : V → K → K → V} (hs : SteppedBy solver f args φ) (x : V) (t0 t1 : K) (rest : List K)
    (hdir : t0 ≤ t1) (hsep : Separated (t0 :: t1 :: rest)) :
    ∃ sol, odeintFixed (pureField f) x (t0 :: t1 :: rest) solver [] args =
        .ok (t0 :: t1 :: rest, sol) ∧
      IsTrajectory φ x (t0 :: t1 :: rest) sol := by
  refine ⟨gridStates φ x (t0 :: t1 :: rest), ?_, gridStates_isTrajectory _ _ _ (by simp)⟩
  rw [odeintFixed_forward _ _ _ hdir,
    fixedOdeint_default _ (pure ()) φ hs.tick x _ (by simp) hsep, tickN_pure]
  rfl

/-- **C12**, rejected grids: points that `torch.isclose` cannot tell apart give `AssertionError`,
whatever the direction of the grid and the solver. -/
theorem C12_rejects_close_grid (f : K → V → V) (solver : Solver (Except PyErr) K V A) (args : A)
    (x : V) (t0 t1 : K) (rest : List K) (hsep : ¬ Separated (t0 :: t1 :: rest)) :
    odeintFixed (pureField f) x (t0 :: t1 :: rest) solver [] args = .error .assertionError := by
  by_cases hdir : t1 < t0
  · rw [odeintFixed_backward _ _ _ hdir]
    have h : ¬ Separated ((t0 :: t1 :: rest).map (fun t => -t)) := by rwa [separated_neg]
    rw [← assert_iff_separated] at h
    simp only [fixedOdeint, List.length_nil, if_true, if_neg h]
    rfl
  · rw [odeintFixed_forward _ _ _ (not_lt.1 hdir)]
    rw [← assert_iff_separated] at hsep
    simp only [fixedOdeint, List.length_nil, if_true, if_neg hsep]
    rfl

/-- **C12**, short grids: fewer than two time points give `IndexError`, whatever the solver and
`save_at`. -/
theorem C12_short_grid (f : K → V → Except PyErr V) (solver : Solver (Except PyErr) K V A) (args : A)
    (x : V) (tSpan saveAt : List K) (h : tSpan.length < 2) :
    odeintFixed f x tSpan solver saveAt args = .error .indexError := by
  match tSpan, h with
  | [], _ => rfl
  | [_], _ => rfl

/-- **C12** spelled out for `euler`: `x_{k+1} = x_k + (t_{k+1} - t_k) f(t_k, x_k)`. -/
theorem C12_euler [Module K V] (f : K → V → V) (args : A) (x : V) (t0 t1 : K) (rest : List K)
    (hdir : t0 ≤ t1) (hsep : Separated (t0 :: t1 :: rest)) :
    ∃ sol, odeintFixed (pureField f) x (t0 :: t1 :: rest) (eulerSolver (Except PyErr) K V A) [] args =
        .ok (t0 :: t1 :: rest, sol) ∧
      sol.length = (t0 :: t1 :: rest).length ∧ sol[0]? = some x ∧
      ∀ (k : ℕ) (t t' : K) (y : V), (t0 :: t1 :: rest)[k]? = some t →
        (t0 :: t1 :: rest)[k + 1]? = some t' → sol[k]? = some y →
        sol[k + 1]? = some (y + (t' - t) • f t y) := by
  obtain ⟨sol, h, hl, h0, hn⟩ := C12_trajectory (euler_steppedBy f args) x t0 t1 rest hdir hsep
  exact ⟨sol, h, hl, h0, hn⟩

/-- **C12** for a user-defined solver whose step returns a 4-tuple: the unpacking raises
`ValueError`. -/
theorem C12_four_tuple_rejected {f : K → V → V} {solver : Solver (Except PyErr) K V A} {args : A}
    (hs : ∀ x t dt, ∃ k y e s, solver.step (pureField f) x t dt none args = .ok (.four k y e s))
    (x : V) (t0 t1 : K) (rest : List K) (hdir : t0 ≤ t1) (hsep : Separated (t0 :: t1 :: rest)) :
    odeintFixed (pureField f) x (t0 :: t1 :: rest) solver [] args = .error .valueError := by
  rw [odeintFixed_forward _ _ _ hdir]
  rw [← assert_iff_separated] at hsep
  obtain ⟨k, y, e, s, h⟩ := hs x t0 (t1 - t0)
  simp only [fixedOdeint, List.length_nil, if_true, if_pos hsep, getItem, List.getElem?_cons_succ,
    List.getElem?_cons_zero, pure_bind, List.length_cons, fixedLoop]
  rw [if_pos (by omega), h]
  rfl

/-! ### save_at -/

theorem filter_mem_of_sublist {α : Type} [DecidableEq α] {l l' : List α} (h : l'.Sublist l)
    (hn : l.Nodup) : l.filter (fun a => decide (a ∈ l')) = l' := by
  induction h with
  | slnil => rfl
  | @cons l₁ l₂ a hs ih =>
    rw [List.nodup_cons] at hn
    have : a ∉ l₁ := fun hm => hn.1 (hs.subset hm)
    rw [List.filter_cons, if_neg (by simpa using this), ih hn.2]
  | @cons_cons l₁ l₂ a hs ih =>
    rw [List.nodup_cons] at hn
    have e : l₂.filter (fun b => decide (b ∈ a :: l₁)) = l₂.filter (fun b => decide (b ∈ l₁)) := by
      apply List.filter_congr
      intro b hb
      have : b ≠ a := fun h => hn.1 (h ▸ hb)
      simp [this]
    rw [List.filter_cons, if_pos (by simp), e, ih hn.2]

theorem collect_times {K V : Type} (keep : K → Bool) (ts : List K) (xs : List V)
    (hl : xs.length = ts.length) :
    (((ts.zip xs).filter (fun p => keep p.1)).map Prod.fst) = ts.filter keep := by
  induction ts generalizing xs with
  | nil => simp
  | cons t ts ih =>
    cases xs with
    | nil => simp at hl
    | cons y xs =>
      have := ih xs (by simpa using hl)
      by_cases hk : keep t <;> simp [List.filter_cons, hk, this]

/-- The states selected by a sublist of a duplicate-free grid: aligned with the sublist, and equal to
the grid states at the same times. -/
theorem collect_sublist {K V : Type} [DecidableEq K] {ts sa : List K} {xs : List V}
    (hl : xs.length = ts.length) (hs : sa.Sublist ts) (hn : ts.Nodup) :
    (collect (fun t => decide (t ∈ sa)) ts xs).length = sa.length ∧
    ∀ (i : ℕ) (s : K), sa[i]? = some s → ∃ (k : ℕ) (y : V), ts[k]? = some s ∧ xs[k]? = some y ∧
      (collect (fun t => decide (t ∈ sa)) ts xs)[i]? = some y := by
  have ht := collect_times (fun t => decide (t ∈ sa)) ts xs hl
  rw [filter_mem_of_sublist hs hn] at ht
  have hlen : (collect (fun t => decide (t ∈ sa)) ts xs).length = sa.length := by
    have := congrArg List.length ht
    rw [List.length_map] at this
    rw [collect, List.length_map, this]
  refine ⟨hlen, ?_⟩
  intro i s hi
  rw [← ht, List.getElem?_map, Option.map_eq_some_iff] at hi
  obtain ⟨⟨s', y⟩, hp, rfl⟩ := hi
  have hmem : (s', y) ∈ ts.zip xs := List.mem_of_mem_filter (List.mem_of_getElem? hp)
  obtain ⟨k, hk⟩ := List.mem_iff_getElem?.1 hmem
  obtain ⟨h1, h2⟩ := List.getElem?_zip_eq_some.1 hk
  refine ⟨k, y, h1, h2, ?_⟩
  rw [collect, List.getElem?_map, hp]
  rfl

theorem keep_iff_mem {ts sa : List K} (hsep : Separated ts) (hs : sa.Sublist ts) :
    ∀ t ∈ ts, (closeCount torchIsclose t sa ≠ 0 ↔ t ∈ sa) := by
  intro t ht
  rw [closeCount_ne_zero]
  constructor
  · rintro ⟨s, hsm, hc⟩
    rw [torchIsclose_iff] at hc
    rw [hsep.eq_of_close ht (hs.subset hsm) hc]; exact hsm
  · intro hm
    exact ⟨t, hm, torchIsclose_self t⟩

theorem collect_congr {K V : Type} {keep keep' : K → Bool} {ts : List K} {xs : List V}
    (h : ∀ t ∈ ts, keep t = keep' t) : collect keep ts xs = collect keep' ts xs := by
  have : (ts.zip xs).filter (fun p => keep p.1) = (ts.zip xs).filter (fun p => keep' p.1) := by
    apply List.filter_congr
    rintro ⟨t, y⟩ hm
    exact h t (List.of_mem_zip hm).1
  rw [collect, collect, this]

/-- **C13.** With `save_at` a (non-empty) part of `t_span`, in the order of `t_span`, `odeint`
returns `save_at` and, aligned with it, exactly the states that the run without `save_at` gives at
those times. -/
theorem C13_save_at {f : K → V → V} {solver : Solver (Except PyErr) K V A} {args : A}
    {φ : V → K → K → V} (hs : SteppedBy solver f args φ) (x : V) (t0 t1 : K) (rest saveAt : List K)
    (hdir : t0 ≤ t1) (hsep : Separated (t0 :: t1 :: rest)) (hne : saveAt ≠ [])
    (hsub : saveAt.Sublist (t0 :: t1 :: rest)) :
    ∃ full sol,
      odeintFixed (pureField f) x (t0 :: t1 :: rest) solver [] args = .ok (t0 :: t1 :: rest, full) ∧
      odeintFixed (pureField f) x (t0 :: t1 :: rest) solver saveAt args = .ok (saveAt, sol) ∧
      sol.length = saveAt.length ∧
      ∀ (i : ℕ) (s : K), saveAt[i]? = some s → ∃ (k : ℕ) (y : V),
        (t0 :: t1 :: rest)[k]? = some s ∧ full[k]? = some y ∧ sol[i]? = some y := by
  have hl := gridStates_length φ x (t0 :: t1 :: rest)
  obtain ⟨hlen, hal⟩ := collect_sublist hl hsub hsep.nodup
  refine ⟨gridStates φ x (t0 :: t1 :: rest),
    collect (fun t => decide (t ∈ saveAt)) (t0 :: t1 :: rest) (gridStates φ x (t0 :: t1 :: rest)),
    ?_, ?_, hlen, hal⟩
  · rw [odeintFixed_forward _ _ _ hdir,
      fixedOdeint_default _ (pure ()) φ hs.tick x _ (by simp) hsep, tickN_pure]
    rfl
  · rw [odeintFixed_forward _ _ _ hdir, fixedOdeint_eq _ (pure ()) φ hs.tick, tickN_pure]
    have e : effSaveAt (t0 :: t1 :: rest) saveAt = saveAt := by
      rw [effSaveAt, if_neg]; simpa using hne
    rw [e, if_pos ((assert_iff_separated _).2 (hsep.sublist hsub))]
    rw [collect_congr (keep' := fun t => decide (t ∈ saveAt))
      (fun t ht => decide_eq_decide.2 (keep_iff_mem hsep hsub t ht))]
    simp only [pure_bind]
    have h0 : (collect (fun t => decide (t ∈ saveAt)) (t0 :: t1 :: rest)
        (gridStates φ x (t0 :: t1 :: rest))) ≠ [] := by
      intro h0
      rw [h0] at hlen
      exact hne (List.eq_nil_of_length_eq_zero hlen.symm)
    cases hc : collect (fun t => decide (t ∈ saveAt)) (t0 :: t1 :: rest)
        (gridStates φ x (t0 :: t1 :: rest)) with
    | nil => exact absurd hc h0
    | cons a l => rfl

/-- **C13**, why the order of `save_at` matters: with `save_at = [2, 0]` on the grid `[0, 1, 2]` the
returned times are `[2, 0]` but the states are those of times `0` and `2`, in this order. -/
theorem C13_unsorted_refuted :
    odeintFixed (K := ℚ) (V := ℚ) (A := Unit) (pureField (fun _ _ => 1)) 0 [0, 1, 2]
      (eulerSolver (Except PyErr) ℚ ℚ Unit) [2, 0] () = .ok ([2, 0], [0, 2]) := by
  decide +kernel

/-- **C14 is false of the code**: the assertion compares `save_at` with itself. On the grid `[0, 1]`
with `save_at = [0, 5]` no error is raised, the time `5` is returned although it is not in `t_span`,
and there are two times but only one state. -/
theorem C14_outside_refuted :
    ¬ ∀ (tSpan saveAt : List ℚ) (s : ℚ), s ∈ saveAt → s ∉ tSpan →
      ∃ e, odeintFixed (K := ℚ) (V := ℚ) (A := Unit) (pureField (fun _ y => y)) 1 tSpan
        (eulerSolver (Except PyErr) ℚ ℚ Unit) saveAt () = .error e := by
  intro h
  obtain ⟨e, he⟩ := h [0, 1] [0, 5] 5 (by simp) (by norm_num)
  have : odeintFixed (K := ℚ) (V := ℚ) (A := Unit) (pureField (fun _ y => y)) 1 [0, 1]
      (eulerSolver (Except PyErr) ℚ ℚ Unit) [0, 5] () = .ok ([0, 5], [1]) := by decide +kernel
  rw [this] at he
  cases he

/-- **C14** (partial: what happens instead of a rejection). For every non-empty `save_at` whose
points can be told apart, the returned times are `save_at` and the returned states are those of the
grid points that are close to some save point, in grid order; if there is none, `IndexError`. -/
theorem C14_outside_partial {f : K → V → V} {solver : Solver (Except PyErr) K V A} {args : A}
    {φ : V → K → K → V} (hs : SteppedBy solver f args φ) (x : V) (t0 t1 : K) (rest saveAt : List K)
    (hdir : t0 ≤ t1) (hne : saveAt ≠ []) (hsa : Separated saveAt) (traj : List V)
    (htraj : IsTrajectory φ x (t0 :: t1 :: rest) traj) :
    odeintFixed (pureField f) x (t0 :: t1 :: rest) solver saveAt args =
      (open Classical in
       let sol := (((t0 :: t1 :: rest).zip traj).filter (fun p => ∃ s ∈ saveAt, Close p.1 s)).map
          Prod.snd
       if sol = [] then .error .indexError else .ok (saveAt, sol)) := by
  rw [htraj.eq_gridStates (by simp)]
  rw [odeintFixed_forward _ _ _ hdir, fixedOdeint_eq _ (pure ()) φ hs.tick, tickN_pure]
  have e : effSaveAt (t0 :: t1 :: rest) saveAt = saveAt := by
    rw [effSaveAt, if_neg]; simpa using hne
  rw [e, if_pos ((assert_iff_separated _).2 hsa)]
  have hf : ∀ t, decide (closeCount torchIsclose t saveAt ≠ 0) =
      (open Classical in decide (∃ s ∈ saveAt, Close t s)) := by
    intro t
    apply decide_eq_decide.2
    rw [closeCount_ne_zero]
    simp only [torchIsclose_iff]
  simp only [collect, hf, pure_bind]
  split_ifs with h0
  · rw [h0]; rfl
  · cases hc : List.map Prod.snd (List.filter (fun p : K × V => open Classical in
        decide (∃ s ∈ saveAt, Close p.1 s))
        ((t0 :: t1 :: rest).zip (gridStates φ x (t0 :: t1 :: rest)))) with
    | nil => exact absurd hc h0
    | cons a l => rfl

/-- **C14**, unseparated `save_at` is the only thing the assertion rejects. -/
theorem C14_close_save_at_rejected (f : K → V → V) (solver : Solver (Except PyErr) K V A) (args : A)
    (x : V) (t0 t1 : K) (rest saveAt : List K) (hsa : ¬ Separated saveAt) :
    odeintFixed (pureField f) x (t0 :: t1 :: rest) solver saveAt args = .error .assertionError := by
  have hne : saveAt.length ≠ 0 := by
    intro h0
    rw [List.eq_nil_of_length_eq_zero h0] at hsa
    exact hsa List.Pairwise.nil
  rw [← assert_iff_separated] at hsa
  by_cases hdir : t1 < t0
  · rw [odeintFixed_backward _ _ _ hdir]
    simp only [fixedOdeint, if_neg hne, if_neg hsa]
    rfl
  · rw [odeintFixed_forward _ _ _ (not_lt.1 hdir)]
    simp only [fixedOdeint, if_neg hne, if_neg hsa]
    rfl

/-- **C16.** Solving over a grid equals solving over a prefix and restarting from the last state over
the rest of the grid, which begins at the split point `s`. -/
theorem C16_split {f : K → V → V} {solver : Solver (Except PyErr) K V A} {args : A}
    {φ : V → K → K → V} (hs : SteppedBy solver f args φ) (x : V)
    (t0 t1 : K) (pre : List K) (s s1 : K) (post : List K)
    (hpre : t0 :: t1 :: pre = (t0 :: t1 :: pre).dropLast ++ [s])
    (hdir : t0 ≤ t1) (hdir' : s ≤ s1) (hsep : Separated ((t0 :: t1 :: pre) ++ s1 :: post)) :
    ∃ sol₁ xs sol₂,
      odeintFixed (pureField f) x (t0 :: t1 :: pre) solver [] args = .ok (t0 :: t1 :: pre, sol₁) ∧
      sol₁.getLast? = some xs ∧
      odeintFixed (pureField f) xs (s :: s1 :: post) solver [] args = .ok (s :: s1 :: post, sol₂) ∧
      odeintFixed (pureField f) x ((t0 :: t1 :: pre) ++ s1 :: post) solver [] args =
        .ok ((t0 :: t1 :: pre) ++ s1 :: post, sol₁ ++ sol₂.tail) := by
  have hs1 : Separated (t0 :: t1 :: pre) := hsep.sublist (List.sublist_append_left _ _)
  have hs2 : Separated (s :: s1 :: post) := by
    refine hsep.sublist ?_
    rw [hpre, List.append_assoc]
    exact List.sublist_append_right _ _
  have hne : gridStates φ x (t0 :: t1 :: pre) ≠ [] := by
    intro h
    have := congrArg List.length h
    rw [gridStates_length] at this
    simp at this
  obtain ⟨xs, hxs⟩ : ∃ xs, (gridStates φ x (t0 :: t1 :: pre)).getLast? = some xs :=
    ⟨_, List.getLast?_eq_some_getLast hne⟩
  have run : ∀ (y : V) (a b : K) (l : List K), a ≤ b → Separated (a :: b :: l) →
      odeintFixed (pureField f) y (a :: b :: l) solver [] args =
        .ok (a :: b :: l, gridStates φ y (a :: b :: l)) := by
    intro y a b l hab hsep
    rw [odeintFixed_forward _ _ _ hab,
      fixedOdeint_default _ (pure ()) φ hs.tick y _ (by simp) hsep, tickN_pure]
    rfl
  refine ⟨_, xs, _, run x _ _ _ hdir hs1, hxs, run xs _ _ _ hdir' hs2, ?_⟩
  have happ := gridStates_append φ x (t0 :: t1 :: pre).dropLast (s1 :: post) s
  have e : (t0 :: t1 :: pre).dropLast ++ s :: s1 :: post = (t0 :: t1 :: pre) ++ s1 :: post := by
    conv_rhs => rw [hpre]
    simp
  rw [e, ← hpre, hxs] at happ
  simp only [List.cons_append]
  rw [run x t0 t1 (pre ++ s1 :: post) hdir (by simpa using hsep)]
  simp only [List.cons_append, Option.getD_some] at happ
  rw [happ]

end forward

/-! ### Backward time -/

section backward

variable {K V A : Type} [Field K] [LinearOrder K] [IsStrictOrderedRing K] [AddCommGroup V]

theorem gridStates_neg {V : Type} (φ ψ : V → K → K → V)
    (h : ∀ x t dt, φ x (-t) dt = ψ x t (-dt)) (x : V) (ts : List K) :
    gridStates φ x (ts.map (fun t => -t)) = gridStates ψ x ts := by
  induction ts generalizing x with
  | nil => rfl
  | cons t ts ih =>
    cases ts with
    | nil => rfl
    | cons t' ts =>
      have := ih (φ x (-t) (-t' - -t))
      simp only [List.map_cons, gridStates] at this ⊢
      rw [this, h]
      have e : -(-t' - -t) = t' - t := by ring
      rw [e]

/-- **C17.** (partial: the returned times are `-t_span`, not `t_span`.) For a decreasing first gap,
`odeint` with a fixed-step solver returns the states of stepping the original field `f` with negative
steps along `t_span`, provided the solver's step is symmetric under time mirroring (`hmir`, proved
below for `euler`, `midpoint` and `rk4`). -/
theorem C17_backward_partial {f : K → V → V} {solver : Solver (Except PyErr) K V A} {args : A}
    {φ ψ : V → K → K → V} (hs : SteppedBy solver (fun t x => -f (-t) x) args φ)
    (hmir : ∀ x t dt, φ x (-t) dt = ψ x t (-dt))
    (x : V) (t0 t1 : K) (rest : List K)
    (hdir : t1 < t0) (hsep : Separated (t0 :: t1 :: rest)) :
    ∃ sol, odeintFixed (pureField f) x (t0 :: t1 :: rest) solver [] args =
        .ok ((t0 :: t1 :: rest).map (fun t => -t), sol) ∧
      IsTrajectory ψ x (t0 :: t1 :: rest) sol := by
  refine ⟨gridStates ψ x (t0 :: t1 :: rest), ?_, gridStates_isTrajectory _ _ _ (by simp)⟩
  rw [odeintFixed_backward _ _ _ hdir, fixedOdeint_default _ (pure ()) φ hs.tick x _ (by simp)
    ((separated_neg _).2 hsep), tickN_pure, gridStates_neg φ ψ hmir]
  rfl

/-- **C17** for `euler`, `midpoint` and `rk4`: the states are those of stepping `f` itself with
negative steps along `t_span`. -/
theorem C17_backward_builtin_partial [CharZero K] [Module K V] (f : K → V → V) (args : A)
    (x : V) (t0 t1 : K) (rest : List K) (hdir : t1 < t0) (hsep : Separated (t0 :: t1 :: rest)) :
    (∃ sol, odeintFixed (pureField f) x (t0 :: t1 :: rest) (eulerSolver (Except PyErr) K V A) [] args =
        .ok ((t0 :: t1 :: rest).map (fun t => -t), sol) ∧
      IsTrajectory (fun x t dt => x + dt • f t x) x (t0 :: t1 :: rest) sol) ∧
    (∃ sol, odeintFixed (pureField f) x (t0 :: t1 :: rest) (midpointSolver (Except PyErr) K V A) [] args =
        .ok ((t0 :: t1 :: rest).map (fun t => -t), sol) ∧
      IsTrajectory (fun x t dt => x + dt • f (t + (1 / 2 : K) * dt) (x + ((1 / 2 : K) * dt) • f t x))
        x (t0 :: t1 :: rest) sol) ∧
    (∃ sol, odeintFixed (pureField f) x (t0 :: t1 :: rest) (rk4Solver (Except PyErr) K V A) [] args =
        .ok ((t0 :: t1 :: rest).map (fun t => -t), sol) ∧
      IsTrajectory (rk4Update f) x (t0 :: t1 :: rest) sol) := by
  refine ⟨C17_backward_partial (euler_steppedBy _ args) ?_ x t0 t1 rest hdir hsep,
    C17_backward_partial (midpoint_steppedBy _ args) ?_ x t0 t1 rest hdir hsep,
    C17_backward_partial (rk4_steppedBy _ args) ?_ x t0 t1 rest hdir hsep⟩
  · intro x t dt
    simp only [neg_neg, smul_neg, neg_smul]
  · intro x t dt
    simp only [neg_neg, smul_neg, neg_smul, mul_neg, neg_add]
  · intro x t dt
    simp only [rk4Update, rk4Step, firstStage, pureField, bind, pure, StepOut.newState,
      constructRk4, nth, nth2, List.getD_cons_zero, List.getD_cons_succ,
      neg_neg, smul_neg, neg_smul, smul_add, neg_add, mul_neg, neg_mul]

/-- **C17 is false of the code in its last clause**: the returned times are the negated `t_span`. -/
theorem C17_returned_times_refuted :
    ¬ ∀ (tSpan : List ℚ) (r : List ℚ × List ℚ),
      odeintFixed (K := ℚ) (V := ℚ) (A := Unit) (pureField (fun _ y => y)) 1 tSpan
        (eulerSolver (Except PyErr) ℚ ℚ Unit) [] () = .ok r → r.1 = tSpan := by
  intro h
  have : odeintFixed (K := ℚ) (V := ℚ) (A := Unit) (pureField (fun _ y => y)) 1 [2, 1]
      (eulerSolver (Except PyErr) ℚ ℚ Unit) [] () = .ok ([-2, -1], [1, 0]) := by decide +kernel
  have := h _ _ this
  norm_num at this

/-- **C17**, consequence for `save_at`: it is compared with the negated grid, so even
`save_at = t_span` fails on a backward grid away from `0`. -/
theorem C17_backward_save_at_refuted :
    odeintFixed (K := ℚ) (V := ℚ) (A := Unit) (pureField (fun _ y => y)) 1 [2, 1]
      (eulerSolver (Except PyErr) ℚ ℚ Unit) [2, 1] () = .error .indexError := by
  decide +kernel

/-- **C17**, round trip: integrating forward with `euler` on `x' = c` and back over the reversed grid
returns to the start. -/
theorem C17_round_trip_const [Module K V] (c : V) (args : A) (x : V) (t0 t1 : K) (hdir : t0 < t1)
    (hsep : Separated [t0, t1]) :
    ∃ y, odeintFixed (pureField (fun _ _ => c)) x [t0, t1] (eulerSolver (Except PyErr) K V A) [] args =
        .ok ([t0, t1], [x, y]) ∧
      odeintFixed (pureField (fun _ _ => c)) y [t1, t0] (eulerSolver (Except PyErr) K V A) [] args =
        .ok ([-t1, -t0], [y, x]) := by
  have hsep' : Separated [t1, t0] := by
    simp only [Separated, List.pairwise_cons, List.mem_singleton, forall_eq, List.not_mem_nil,
      false_implies, implies_true, List.Pairwise.nil, and_true] at hsep ⊢
    exact hsep.symm
  refine ⟨x + (t1 - t0) • c, ?_, ?_⟩
  · rw [odeintFixed_forward _ _ _ hdir.le,
      fixedOdeint_default _ (pure ()) _ (euler_steppedBy _ args).tick x _ (by simp) hsep, tickN_pure]
    rfl
  · rw [odeintFixed_backward _ _ _ hdir,
      fixedOdeint_default _ (pure ()) _ (euler_steppedBy _ args).tick _ _ (by simp)
        ((separated_neg _).2 hsep'), tickN_pure]
    have : x + (t1 - t0) • c + (-t0 - -t1) • -c = x := by
      rw [smul_neg, show (-t0 - -t1) = t1 - t0 by ring]; abel
    simp only [List.map_cons, List.map_nil, gridStates, this, pure_bind]
    rfl

end backward

/-! ### Counting evaluations -/

section nfe

variable {K V A : Type} [Field K] [LinearOrder K] [IsStrictOrderedRing K] [AddCommGroup V]
  [Module K V]

/-- A field that increments a counter at every call (`DEFuncBase.nfe`, core/defunc.py:28-35). -/
def countedField {K V : Type} (f : K → V → V) : K → V → StateT Nat (Except PyErr) V :=
  fun t x => do
    modify (· + 1)
    pure (f t x)

theorem tickN_modify (s n k : Nat) :
    (tickN (modify (· + s) : StateT Nat (Except PyErr) Unit) n).run k = .ok ((), k + n * s) := by
  induction n generalizing k with
  | zero => simp [tickN]; rfl
  | succ n ih =>
    simp only [tickN, StateT.run_bind]
    have : (modify (· + s) : StateT Nat (Except PyErr) Unit).run k = .ok ((), k + s) := rfl
    rw [this]
    have := ih (k + s)
    simp only [bind, Except.bind]
    rw [this]
    congr 2
    ring

theorem nfe_aux (solver : Solver (StateT Nat (Except PyErr)) K V A) (s : Nat)
    (hstep : ∀ (f : K → V → V) (x : V) (t dt : K) (args : A), ∃ k y e,
      solver.step (countedField f) x t dt none args =
        (do modify (· + s); pure (.three k y e)))
    (f : K → V → V) (args : A) (x : V) (t0 t1 : K) (rest : List K)
    (hsep : Separated (t0 :: t1 :: rest)) (n : Nat) :
    ∃ r, (odeintFixed (countedField f) x (t0 :: t1 :: rest) solver [] args).run n =
      .ok (r, n + (rest.length + 1) * s) := by
  have main : ∀ (g : K → V → V) (a b : K) (l : List K), Separated (a :: b :: l) →
      ∃ r, (fixedOdeint torchIsclose (fun x t dt => solver.step (countedField g) x t dt none args) x
        (a :: b :: l) []).run n = .ok (r, n + (l.length + 1) * s) := by
    intro g a b l hsep
    have hs : ∀ x t dt, ∃ k e, solver.step (countedField g) x t dt none args =
        (do modify (· + s); pure (.three k (Classical.choose (Classical.choose_spec
          (hstep g x t dt args))) e)) := by
      intro x t dt
      obtain ⟨e, h⟩ := Classical.choose_spec (Classical.choose_spec (hstep g x t dt args))
      exact ⟨_, e, h⟩
    rw [fixedOdeint_default _ (modify (· + s)) _ hs x _ (by simp) hsep]
    rw [StateT.run_bind, tickN_modify]
    exact ⟨_, rfl⟩
  by_cases hdir : t1 < t0
  · have e : odeintFixed (countedField f) x (t0 :: t1 :: rest) solver [] args =
        fixedOdeint torchIsclose
          (fun x t dt => solver.step (countedField (fun t x => -f (-t) x)) x t dt none args) x
          ((t0 :: t1 :: rest).map (fun t => -t)) [] := by
      simp only [odeintFixed, odeintDirection, getItem, List.getElem?_cons_succ,
        List.getElem?_cons_zero, pure_bind, if_pos hdir]
      have : reverseField (countedField f) = countedField (fun t x => -f (-t) x) := by
        funext t x
        simp [reverseField, countedField]
      rw [this]
    rw [e]
    have := main (fun t x => -f (-t) x) (-t0) (-t1) (rest.map (fun t => -t))
      (by simpa using (separated_neg _).2 hsep)
    simpa using this
  · have e : odeintFixed (countedField f) x (t0 :: t1 :: rest) solver [] args =
        fixedOdeint torchIsclose
          (fun x t dt => solver.step (countedField f) x t dt none args) x (t0 :: t1 :: rest) [] := by
      simp only [odeintFixed, odeintDirection, getItem, List.getElem?_cons_succ,
        List.getElem?_cons_zero, pure_bind, if_neg hdir]
    rw [e]
    exact main f t0 t1 rest hsep

/-- **C18.** A fixed-step solve over `n` time points (in either time direction) calls the vector field
exactly `(n-1)*s` times: `s = 1` for `euler`, `2` for `midpoint`, `4` for `rk4`. The counter starts
at an arbitrary value `c`. -/
theorem C18_nfe (f : K → V → V) (args : A) (x : V) (tSpan : List K) (h2 : 2 ≤ tSpan.length)
    (hsep : Separated tSpan) (c : Nat) :
    (∃ r, (odeintFixed (countedField f) x tSpan (eulerSolver (StateT Nat (Except PyErr)) K V A) [] args).run c =
      .ok (r, c + (tSpan.length - 1) * 1)) ∧
    (∃ r, (odeintFixed (countedField f) x tSpan (midpointSolver (StateT Nat (Except PyErr)) K V A) [] args).run c =
      .ok (r, c + (tSpan.length - 1) * 2)) ∧
    (∃ r, (odeintFixed (countedField f) x tSpan (rk4Solver (StateT Nat (Except PyErr)) K V A) [] args).run c =
      .ok (r, c + (tSpan.length - 1) * 4)) := by
  match tSpan, h2 with
  | t0 :: t1 :: rest, _ =>
    exact ⟨nfe_aux _ 1 (fun f x t dt args => ⟨_, _, _, rfl⟩) f args x t0 t1 rest hsep c,
      nfe_aux _ 2 (fun f x t dt args => ⟨_, _, _, rfl⟩) f args x t0 t1 rest hsep c,
      nfe_aux _ 4 (fun f x t dt args => ⟨_, _, _, rfl⟩) f args x t0 t1 rest hsep c⟩

/-- **C18** for `alf` (run by `_fixed_odeint` on position/velocity pairs): two evaluations per step,
the first of which is discarded. -/
theorem C18_nfe_alf (f : K → V → V) (args : A) (xv : V × V) (tSpan : List K)
    (h2 : 2 ≤ tSpan.length) (hsep : Separated tSpan) (c : Nat) :
    ∃ r, (fixedOdeint torchIsclose
        (fun xv t dt => alfStep false (countedField f) xv t dt none args) xv tSpan []).run c =
      .ok (r, c + (tSpan.length - 1) * 2) := by
  have hs : ∀ (xv : V × V) (t dt : K), ∃ k e, alfStep false (countedField f) xv t dt none args =
      (do (modify (· + 2) : StateT Nat (Except PyErr) Unit)
          pure (.three k (alfStep (m := Id) false (pureField f) xv t dt none args).newState e)) :=
    fun xv t dt => ⟨none, none, rfl⟩
  rw [fixedOdeint_default _ (modify (· + 2)) _ hs xv tSpan h2 hsep, StateT.run_bind, tickN_modify]
  exact ⟨_, rfl⟩

end nfe

/-! ### Batches -/

section batch

variable {K V W A : Type} [Field K] [LinearOrder K] [IsStrictOrderedRing K] [AddCommGroup V]
  [Module K V] [AddCommGroup W] [Module K W]

theorem odeintFixed_equivariant (p : V →ₗ[K] W) (f : K → V → V) (g : K → W → W)
    (hfg : ∀ t x, p (f t x) = g t (p x))
    (sV : Solver (Except PyErr) K V A) (sW : Solver (Except PyErr) K W A)
    (hsol : ∀ (f : K → V → V) (g : K → W → W), (∀ t x, p (f t x) = g t (p x)) →
      ∀ args, StepCommutes p (fun x t dt => sV.step (pureField f) x t dt none args)
        (fun x t dt => sW.step (pureField g) x t dt none args))
    (args : A) (x : V) (tSpan saveAt : List K) :
    (odeintFixed (pureField f) x tSpan sV saveAt args).map (fun r => (r.1, r.2.map p)) =
      odeintFixed (pureField g) (p x) tSpan sW saveAt args := by
  match tSpan with
  | [] => rfl
  | [_] => rfl
  | t0 :: t1 :: rest =>
    by_cases hdir : t1 < t0
    · rw [odeintFixed_backward _ _ _ hdir, odeintFixed_backward _ _ _ hdir]
      exact fixedOdeint_map _ p _ _ (hsol _ _ (fun t x => by simp [hfg]) args) _ _ _
    · rw [odeintFixed_forward _ _ _ (not_lt.1 hdir), odeintFixed_forward _ _ _ (not_lt.1 hdir)]
      exact fixedOdeint_map _ p _ _ (hsol _ _ hfg args) _ _ _

/-- **C19**, general form: a linear map `p` between state spaces that intertwines the two fields
maps the whole run of one onto the run of the other — times, states and exceptions — for `euler`,
`midpoint` and `rk4`, every grid (either direction) and every `save_at`. -/
theorem C19_equivariant (p : V →ₗ[K] W) (f : K → V → V) (g : K → W → W)
    (hfg : ∀ t x, p (f t x) = g t (p x)) (args : A) (x : V) (tSpan saveAt : List K) :
    ((odeintFixed (pureField f) x tSpan (eulerSolver (Except PyErr) K V A) saveAt args).map
        (fun r => (r.1, r.2.map p)) =
      odeintFixed (pureField g) (p x) tSpan (eulerSolver (Except PyErr) K W A) saveAt args) ∧
    ((odeintFixed (pureField f) x tSpan (midpointSolver (Except PyErr) K V A) saveAt args).map
        (fun r => (r.1, r.2.map p)) =
      odeintFixed (pureField g) (p x) tSpan (midpointSolver (Except PyErr) K W A) saveAt args) ∧
    ((odeintFixed (pureField f) x tSpan (rk4Solver (Except PyErr) K V A) saveAt args).map
        (fun r => (r.1, r.2.map p)) =
      odeintFixed (pureField g) (p x) tSpan (rk4Solver (Except PyErr) K W A) saveAt args) := by
  refine ⟨odeintFixed_equivariant p f g hfg _ _ ?_ args x tSpan saveAt,
    odeintFixed_equivariant p f g hfg _ _ ?_ args x tSpan saveAt,
    odeintFixed_equivariant p f g hfg _ _ ?_ args x tSpan saveAt⟩
  · intro f g h args x t dt
    simp only [eulerSolver, eulerStep, firstStage, pureField, bind, pure, Except.bind, Except.pure,
      StepOut.unpack3, Except.map, map_add, map_smul, h]
  · intro f g h args x t dt
    simp only [midpointSolver, midpointStep, firstStage, pureField, bind, pure, Except.bind,
      Except.pure, StepOut.unpack3, Except.map, map_add, map_smul, h]
  · intro f g h args x t dt
    simp only [rk4Solver, rk4Step, firstStage, pureField, bind, pure, Except.bind,
      Except.pure, StepOut.unpack3, Except.map, map_add, map_smul, h]

/-- **C19.** Sample `b` of the solution of a batch (each sample with its own field `g b`) is the
solution of that sample alone. -/
theorem C19_batch_sample {B : Type} (g : B → K → V → V) (b : B) (args : A) (x : B → V)
    (tSpan saveAt : List K) :
    ((odeintFixed (pureField (fun t (y : B → V) b => g b t (y b))) x tSpan
        (eulerSolver (Except PyErr) K (B → V) A) saveAt args).map (fun r => (r.1, r.2.map (· b))) =
      odeintFixed (pureField (g b)) (x b) tSpan (eulerSolver (Except PyErr) K V A) saveAt args) ∧
    ((odeintFixed (pureField (fun t (y : B → V) b => g b t (y b))) x tSpan
        (midpointSolver (Except PyErr) K (B → V) A) saveAt args).map (fun r => (r.1, r.2.map (· b))) =
      odeintFixed (pureField (g b)) (x b) tSpan (midpointSolver (Except PyErr) K V A) saveAt args) ∧
    ((odeintFixed (pureField (fun t (y : B → V) b => g b t (y b))) x tSpan
        (rk4Solver (Except PyErr) K (B → V) A) saveAt args).map (fun r => (r.1, r.2.map (· b))) =
      odeintFixed (pureField (g b)) (x b) tSpan (rk4Solver (Except PyErr) K V A) saveAt args) :=
  C19_equivariant (LinearMap.proj b : (B → V) →ₗ[K] V) _ (g b) (fun _ _ => rfl) args x tSpan saveAt

/-- **C19.** Permuting the batch permutes the solution (also for duplicated or dropped samples: `σ`
is an arbitrary re-indexing). -/
theorem C19_batch_permute {B B' : Type} (σ : B' → B) (g : K → V → V) (args : A) (x : B → V)
    (tSpan saveAt : List K) :
    ((odeintFixed (pureField (fun t (y : B → V) b => g t (y b))) x tSpan
        (eulerSolver (Except PyErr) K (B → V) A) saveAt args).map (fun r => (r.1, r.2.map (fun y => y ∘ σ))) =
      odeintFixed (pureField (fun t (y : B' → V) b => g t (y b))) (x ∘ σ) tSpan
        (eulerSolver (Except PyErr) K (B' → V) A) saveAt args) ∧
    ((odeintFixed (pureField (fun t (y : B → V) b => g t (y b))) x tSpan
        (midpointSolver (Except PyErr) K (B → V) A) saveAt args).map (fun r => (r.1, r.2.map (fun y => y ∘ σ))) =
      odeintFixed (pureField (fun t (y : B' → V) b => g t (y b))) (x ∘ σ) tSpan
        (midpointSolver (Except PyErr) K (B' → V) A) saveAt args) ∧
    ((odeintFixed (pureField (fun t (y : B → V) b => g t (y b))) x tSpan
        (rk4Solver (Except PyErr) K (B → V) A) saveAt args).map (fun r => (r.1, r.2.map (fun y => y ∘ σ))) =
      odeintFixed (pureField (fun t (y : B' → V) b => g t (y b))) (x ∘ σ) tSpan
        (rk4Solver (Except PyErr) K (B' → V) A) saveAt args) :=
  C19_equivariant (LinearMap.funLeft K V σ) _ (fun t (y : B' → V) b => g t (y b)) (fun _ _ => rfl)
    args x tSpan saveAt

end batch

/-! ### The hypotheses are met -/

/-- Hypotheses of C12, C13, C16: a separated increasing grid, a part of it, a split point. -/
example : Separated ([0, 1, 2, 3] : List ℚ) ∧ ([0, 2] : List ℚ).Sublist [0, 1, 2, 3] ∧
    ([0, 1] : List ℚ) = ([0, 1] : List ℚ).dropLast ++ [1] := by
  refine ⟨?_, ?_, rfl⟩
  · rw [← assert_iff_separated]; decide +kernel
  · decide

/-- C12 on a time-dependent field. -/
example : odeintFixed (K := ℚ) (V := ℚ) (A := Unit) (pureField (fun t y => t + y)) 1 [0, 1, 3]
    (eulerSolver (Except PyErr) ℚ ℚ Unit) [] () = .ok ([0, 1, 3], [1, 2, 8]) := by decide +kernel

/-- C12: a grid with two points `1e-9` apart is rejected. -/
example : ¬ Separated ([0, 1 / 10 ^ 9] : List ℚ) := by
  rw [← assert_iff_separated]; decide +kernel

/-- C12: a user-defined stepper to which the general statement applies. -/
example (c : ℚ) : SteppedBy (⟨1, false, false, 0, 0, 0, fun _ x _ dt _ _ => pure (.three none (x + c * dt) none)⟩ :
    Solver (Except PyErr) ℚ ℚ Unit) (fun _ y => y) () (fun x _ dt => x + c * dt) :=
  fun _ _ _ => ⟨_, _, rfl⟩

/-- C17: a separated decreasing grid. -/
example : Separated ([2, 1, 0] : List ℚ) := by rw [← assert_iff_separated]; decide +kernel

end Torchdyn
