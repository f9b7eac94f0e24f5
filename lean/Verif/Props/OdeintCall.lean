import Verif.Model.OdeintCall
import Verif.Props.Symplectic

/-!
C115: the arguments of `odeint` (/repo/torchdyn/numerics/odeint.py:53-79): `t_span` as a tensor or a list, solvers and
interpolators by name.
-/

namespace Torchdyn

open Spec

section

variable {ι : Type} [Fintype ι] {A : Type} (fuel : Nat) (x : ι → ℝ) (atol rtol : ℝ) (returnAllEval : Bool)
  (saveAt : List ℝ) (args : A) (sel : Finset ι)

/-- The built-in explicit solver that a documented name stands for. -/
noncomputable def documentedSolver (m : Type → Type) [Monad m] (ι A : Type) : String → Option (Solver m ℝ (ι → ℝ) A)
  | "euler" => some (eulerSolver m ℝ (ι → ℝ) A)
  | "midpoint" => some (midpointSolver m ℝ (ι → ℝ) A)
  | "rk4" | "rk-4" | "RungeKutta4" => some (rk4Solver m ℝ (ι → ℝ) A)
  | "dopri5" | "DormandPrince45" | "DormandPrince5" => some (dopri5Solver m ℝ (ι → ℝ) A)
  | "tsit5" | "Tsitouras45" | "Tsitouras5" => some (tsit5Solver m ℝ (ι → ℝ) A)
  | _ => none

theorem odeintCall_object {m : Type → Type} [Monad m] [LawfulMonad m] [MonadExcept PyErr m] (ieuler alf : Solver m ℝ (ι → ℝ) A)
    (f : ℝ → (ι → ℝ) → m (ι → ℝ)) (ts : List ℝ) (s : Solver m ℝ (ι → ℝ) A) (useInterp : Bool) :
    odeintCall ieuler alf fuel f x (.tensor ts) (.inr s) atol rtol (if useInterp then some "4th" else none) returnAllEval
      saveAt args sel = odeint fuel f x ts s atol rtol useInterp returnAllEval saveAt args sel := by
  have hi : strToInterp "4th" = .ok () := rfl
  unfold odeintCall odeint
  simp only [timeArg, odeintDirection, bind_assoc, pure_bind]
  refine bind_congr fun t1 => bind_congr fun t0 => ?_
  by_cases hlt : t1 < t0 <;> cases useInterp <;> cases hs : s.isTsit5 <;> simp [hlt, hi, liftExcept]

theorem odeintCall_name {m : Type → Type} [Monad m] [LawfulMonad m] [MonadExcept PyErr m] (ieuler alf : Solver m ℝ (ι → ℝ) A)
    (f : ℝ → (ι → ℝ) → m (ι → ℝ)) (ts : TimeArg) {name : String} {c : SolverClass} (h : strToSolver name = .ok c)
    (interpolator : Option String) :
    odeintCall ieuler alf fuel f x ts (.inl name) atol rtol interpolator returnAllEval saveAt args sel =
      odeintCall ieuler alf fuel f x ts (.inr (instantiate ieuler alf c)) atol rtol interpolator returnAllEval saveAt args
        sel := by
  unfold odeintCall
  simp [h, liftExcept]

/-- **C115 (names).** With a one-dimensional tensor, a documented solver name and the interpolator `None` or `'4th'`, the call
runs `odeint` with the solver of that name, whatever effects the field has. -/
theorem C115_names {m : Type → Type} [Monad m] [LawfulMonad m] [MonadExcept PyErr m] (ieuler alf : Solver m ℝ (ι → ℝ) A)
    (f : ℝ → (ι → ℝ) → m (ι → ℝ)) (ts : List ℝ) (name : String) (s : Solver m ℝ (ι → ℝ) A)
    (hn : documentedSolver m ι A name = some s) (useInterp : Bool) :
    odeintCall ieuler alf fuel f x (.tensor ts) (.inl name) atol rtol (if useInterp then some "4th" else none) returnAllEval
      saveAt args sel = odeint fuel f x ts s atol rtol useInterp returnAllEval saveAt args sel := by
  have : ∃ c, strToSolver name = .ok c ∧ instantiate ieuler alf c = s := by
    unfold documentedSolver at hn
    split at hn <;> first | (cases hn; exact ⟨_, rfl, rfl⟩) | cases hn
  obtain ⟨c, h, rfl⟩ := this
  rw [odeintCall_name fuel x atol rtol returnAllEval saveAt args sel ieuler alf f (.tensor ts) h]
  exact odeintCall_object fuel x atol rtol returnAllEval saveAt args sel ieuler alf f ts _ useInterp

/-- **C115 (fixed-step solvers).** The names of the fixed-step solvers run the fixed-step integration with the solver of that
name; the tolerances, the interpolator, `return_all_eval` and the selection of entries have no effect on it. -/
theorem C115_fixed {m : Type → Type} [Monad m] [LawfulMonad m] [MonadExcept PyErr m] (ieuler alf : Solver m ℝ (ι → ℝ) A)
    (f : ℝ → (ι → ℝ) → m (ι → ℝ)) (ts : List ℝ) (name : String) (hname : name ∈ ["euler", "midpoint", "rk4", "rk-4", "RungeKutta4"])
    (s : Solver m ℝ (ι → ℝ) A) (hn : documentedSolver m ι A name = some s) (useInterp : Bool) :
    odeintCall ieuler alf fuel f x (.tensor ts) (.inl name) atol rtol (if useInterp then some "4th" else none) returnAllEval
      saveAt args sel = some <$> odeintFixed f x ts s saveAt args := by
  rw [C115_names fuel x atol rtol returnAllEval saveAt args sel ieuler alf f ts name s hn useInterp]
  have hadp : s.adaptive = false := by
    simp only [List.mem_cons, List.not_mem_nil, or_false] at hname
    rcases hname with rfl | rfl | rfl | rfl | rfl <;> (cases hn; rfl)
  simp [odeint, odeintFixed, hadp]

/-- **C115 (interpolators of `tsit5`).** A `Tsitouras45` solver discards the interpolator, even one that does not exist. -/
theorem C115_tsit5 {m : Type → Type} [Monad m] [LawfulMonad m] [MonadExcept PyErr m] (ieuler alf : Solver m ℝ (ι → ℝ) A)
    (f : ℝ → (ι → ℝ) → m (ι → ℝ)) (ts : TimeArg) (name : String) (hn : name ∈ ["tsit5", "Tsitouras45", "Tsitouras5"])
    (interpolator : Option String) :
    odeintCall ieuler alf fuel f x ts (.inl name) atol rtol interpolator returnAllEval saveAt args sel =
      odeintCall ieuler alf fuel f x ts (.inl name) atol rtol none returnAllEval saveAt args sel := by
  have h : strToSolver name = .ok .tsitouras45 := ((C68_names name).1 _).2 hn
  rw [odeintCall_name fuel x atol rtol returnAllEval saveAt args sel ieuler alf f ts h,
    odeintCall_name fuel x atol rtol returnAllEval saveAt args sel ieuler alf f ts h]
  unfold odeintCall
  simp [instantiate, tsit5Solver]

variable (ieuler alf : Solver (Except PyErr) ℝ (ι → ℝ) A) (f : ℝ → (ι → ℝ) → Except PyErr (ι → ℝ))

/-- **C115 (unknown names).** For a `t_span` of at least two times, a solver name that is not documented raises `KeyError`, and so
does an interpolator name other than `'4th'` unless the solver is `tsit5`: before the field is evaluated (even if it would
raise), and also for fixed-step solvers, which do not use an interpolator. -/
theorem C115_unknown (t0 t1 : ℝ) (ts : List ℝ) :
    (∀ name, (∀ c, name ∉ documentedNames c) → ∀ interpolator,
      odeintCall ieuler alf fuel f x (.tensor (t0 :: t1 :: ts)) (.inl name) atol rtol interpolator returnAllEval saveAt args
        sel = .error .keyError) ∧
    ∀ s : Solver (Except PyErr) ℝ (ι → ℝ) A, s.isTsit5 = false → ∀ iname, iname ≠ "4th" →
      odeintCall ieuler alf fuel f x (.tensor (t0 :: t1 :: ts)) (.inr s) atol rtol (some iname) returnAllEval saveAt args
        sel = .error .keyError := by
  have htime : ∃ p, timeArg (m := Except PyErr) (.tensor (t0 :: t1 :: ts)) = .ok p := by
    unfold timeArg
    by_cases hlt : t1 < t0 <;> simp [getItem, hlt, pure, Except.pure, bind, Except.bind]
  obtain ⟨⟨r, tt⟩, hp⟩ := htime
  constructor
  · intro name hname interpolator
    have h : strToSolver name = .error .keyError := ((C68_names name).2 _).2 ⟨rfl, hname⟩
    unfold odeintCall
    simp only [hp, h, liftExcept, bind, Except.bind]
    rfl
  · intro s hs iname hne
    have h : strToInterp iname = .error .keyError := by
      simp [strToInterp, dictGet, interpDict, Ne.symm hne]
    unfold odeintCall
    simp only [hp, hs, Bool.false_eq_true, if_false, h, liftExcept, bind, Except.bind, pure, Except.pure]
    rfl

/-- **C115 (short grids).** A tensor of fewer than two times raises `IndexError`, before any other argument is looked at. -/
theorem C115_short (ts : List ℝ) (h : ts.length < 2) (solver : String ⊕ Solver (Except PyErr) ℝ (ι → ℝ) A)
    (interpolator : Option String) :
    odeintCall ieuler alf fuel f x (.tensor ts) solver atol rtol interpolator returnAllEval saveAt args sel =
      .error .indexError := by
  have e : ts[1]? = none := by rw [List.getElem?_eq_none_iff]; omega
  unfold odeintCall
  simp only [timeArg, getItem, e, bind, Except.bind]
  rfl

/-- **C115 (lists).** A list of one-dimensional tensors whose first two entries are single times in increasing order acts as the
tensor of all its times.

Missing: any other list. Decreasing times raise `TypeError`, and lists of numbers or of zero-dimensional tensors never work
(`C115_list_refuted`). -/
theorem C115_list_partial (t0 t1 : ℝ) (h : t0 ≤ t1) (rest : List (List ℝ)) (solver : String ⊕ Solver (Except PyErr) ℝ (ι → ℝ) A)
    (interpolator : Option String) :
    odeintCall ieuler alf fuel f x (.chunks ([t0] :: [t1] :: rest)) solver atol rtol interpolator returnAllEval saveAt args
      sel =
    odeintCall ieuler alf fuel f x (.tensor (t0 :: t1 :: rest.flatten)) solver atol rtol interpolator returnAllEval saveAt
      args sel := by
  have e : timeArg (m := Except PyErr) (.chunks ([t0] :: [t1] :: rest)) = timeArg (.tensor (t0 :: t1 :: rest.flatten)) := by
    simp [timeArg, getItem, tensorLt, not_lt.2 h, bind, Except.bind, pure, Except.pure]
  unfold odeintCall
  rw [e]

/-- **C115 (refutation for lists).** `t_span` as a list is documented, but: a list of tensors in decreasing order raises
`TypeError`, whatever the solver (the same times as a tensor are integrated backward); a list of numbers raises `TypeError`
and a list of zero-dimensional tensors `TypeError` or `RuntimeError`, for every solver, interpolator and field. -/
theorem C115_list_refuted (solver : String ⊕ Solver (Except PyErr) ℝ (ι → ℝ) A) (interpolator : Option String) (t0 t1 : ℝ) :
    (t1 < t0 → ∀ rest, odeintCall ieuler alf fuel f x (.chunks ([t0] :: [t1] :: rest)) solver atol rtol interpolator
      returnAllEval saveAt args sel = .error .typeError) ∧
    (∀ rest, odeintCall ieuler alf fuel f x (.numbers (t0 :: t1 :: rest)) solver atol rtol interpolator returnAllEval saveAt args
      sel = .error .typeError) ∧
    ∀ rest, odeintCall ieuler alf fuel f x (.scalars (t0 :: t1 :: rest)) solver atol rtol interpolator returnAllEval saveAt args
      sel = .error (if t1 < t0 then .typeError else .runtimeError) := by
  refine ⟨fun h rest => ?_, fun rest => ?_, fun rest => ?_⟩
  · have e : timeArg (m := Except PyErr) (.chunks ([t0] :: [t1] :: rest)) = .error .typeError := by
      simp [timeArg, getItem, tensorLt, h, bind, Except.bind, pure, Except.pure]
      rfl
    unfold odeintCall
    rw [e]
    rfl
  · rfl
  · have e : timeArg (m := Except PyErr) (.scalars (t0 :: t1 :: rest)) =
        .error (if t1 < t0 then .typeError else .runtimeError) := by
      by_cases h : t1 < t0 <;> simp [timeArg, getItem, h, bind, Except.bind, pure, Except.pure] <;> rfl
    unfold odeintCall
    rw [e]
    rfl

/-- **C115 (several time spans).** A two-dimensional `t_span` never integrates: rows of several times raise `RuntimeError` at the
direction test; rows of a single time raise `KeyError` for unknown names and otherwise the `NotImplementedError` that
announces the missing feature. -/
theorem C115_matrix (r0 r1 : List ℝ) (rows : List (List ℝ)) :
    (r0.length ≠ 1 ∨ r1.length ≠ 1 → ∀ solver interpolator,
      odeintCall ieuler alf fuel f x (.matrix (r0 :: r1 :: rows)) solver atol rtol interpolator returnAllEval saveAt args sel =
        .error .runtimeError) ∧
    (r0.length = 1 → r1.length = 1 → ∀ s : Solver (Except PyErr) ℝ (ι → ℝ) A,
      odeintCall ieuler alf fuel f x (.matrix (r0 :: r1 :: rows)) (.inr s) atol rtol none returnAllEval saveAt args sel =
        .error .notImplementedError) := by
  constructor
  · intro h solver interpolator
    have e : tensorLt (m := Except PyErr) r1 r0 = .error .runtimeError := by
      unfold tensorLt
      split
      · simp at h
      · rfl
    have e' : timeArg (m := Except PyErr) (.matrix (r0 :: r1 :: rows)) = .error .runtimeError := by
      simp [timeArg, getItem, e, bind, Except.bind, pure, Except.pure]
    unfold odeintCall
    rw [e']
    rfl
  · intro h0 h1 s
    obtain ⟨a, rfl⟩ := List.length_eq_one_iff.1 h0
    obtain ⟨b, rfl⟩ := List.length_eq_one_iff.1 h1
    have e : ∃ r rows', timeArg (m := Except PyErr) (.matrix ([a] :: [b] :: rows)) = .ok (r, .mat rows') := by
      by_cases h : b < a <;> simp [timeArg, getItem, tensorLt, h, bind, Except.bind, pure, Except.pure]
    obtain ⟨r, rows', e⟩ := e
    unfold odeintCall
    rw [e]
    simp only [bind, Except.bind, pure, Except.pure]
    cases s.isTsit5 <;> rfl

end

/-- Non-vacuity: documented and undocumented names. -/
example : (documentedSolver (Except PyErr) (Fin 1) Unit "rk-4").isSome ∧ (∀ c, "Euler" ∉ documentedNames c) ∧
    (eulerSolver (Except PyErr) ℝ (Fin 1 → ℝ) Unit).isTsit5 = false :=
  ⟨rfl, fun c => by cases c <;> decide, rfl⟩

end Torchdyn
