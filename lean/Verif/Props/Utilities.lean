import Verif.Model.DenseOutput
import Verif.Model.RootLogger
import Verif.Props.Root

/-!
Properties of the utilities: the logger of `root_find` (C144) and `dense_output` (C145).
-/

set_option linter.unusedSectionVars false

namespace Torchdyn

variable {β ι ο : Type} [Fintype β] [Fintype ι] [Fintype ο]

/-- What the logger holds after the state `s` of a verbose run. -/
def logOf (s : RootState β ι ο) : RootLog β ι ο :=
  [("geval", .residual s.geval), ("z", .point s.z), ("dz", .point s.dz), ("iteration", .int s.iteration), ("alpha", .emptyList),
   ("phi", .emptyList)] ++ if s.terminated then [("termination_condition", .text "total condition")] else []

theorem rootLogLog_four (log : RootLog β ι ο) (hlog : ∃ a b c d, log = [("geval", a), ("z", b), ("dz", c), ("iteration", d),
    ("alpha", .emptyList), ("phi", .emptyList)]) (g : Batch β ο) (z dz : Batch β ι) (n : ℕ) :
    rootLogLog log [("geval", .residual g), ("z", .point z), ("dz", .point dz), ("iteration", .int n)] =
      [("geval", .residual g), ("z", .point z), ("dz", .point dz), ("iteration", .int n), ("alpha", .emptyList),
       ("phi", .emptyList)] := by
  obtain ⟨a, b, c, d, rfl⟩ := hlog
  simp [rootLogLog, logSet]

/-- The loop with the logger follows the loop without it. -/
theorem rootLoopLog_eq {cfg : RootCfg} {method : RootMethod} {search : SearchMethod} {g : Batch β ι → Batch β ο} {fuel : ℕ}
    (left : ℕ) : ∀ (s : RootState β ι ο) (log : RootLog β ι ο), s.terminated = false →
    (∃ a b c d, log = [("geval", a), ("z", b), ("dz", c), ("iteration", d), ("alpha", .emptyList), ("phi", .emptyList)]) →
    (left = 0 → log = logOf s) →
    rootLoopLog cfg method search true g fuel left s log =
      (rootLoop cfg method search g fuel left s).map (Option.map fun s' => (s'.z, logOf s')) := by
  induction left with
  | zero =>
    intro s log _ _ h
    rw [h rfl]
    rfl
  | succ left ih =>
    intro s log ht hlog _
    simp only [rootLoopLog, rootLoop, bind, Except.bind, if_true]
    cases rootStep method g s.z s.Jinv s.geval s.alpha with
    | error e => rfl
    | ok r =>
      obtain ⟨z, dz, geval, J⟩ := r
      simp only
      cases searchAlpha search g geval dz z s.alpha fuel with
      | none => rfl
      | some alpha =>
        simp only
        generalize termCheck cfg.fTol cfg.fRtol cfg.xTol cfg.xRtol s.f0Norm geval z dz = tc
        obtain ⟨f0, stop⟩ := tc
        simp only [rootLogLog_four log hlog]
        cases stop with
        | true => simp [logOf, rootLogLog, logSet, returnCode2, pure, Except.pure, Except.map]
        | false =>
          simp only [Bool.false_eq_true, if_false]
          exact ih _ _ rfl ⟨_, _, _, _, rfl⟩ (fun _ => by simp [logOf])

theorem rootLoopLog_quiet {cfg : RootCfg} {method : RootMethod} {search : SearchMethod} {g : Batch β ι → Batch β ο} {fuel : ℕ}
    (left : ℕ) : ∀ (s : RootState β ι ο) (log : RootLog β ι ο),
    rootLoopLog cfg method search false g fuel left s log =
      (rootLoop cfg method search g fuel left s).map (Option.map fun s' => (s'.z, log)) := by
  induction left with
  | zero =>
    intro s log
    rfl
  | succ left ih =>
    intro s log
    simp only [rootLoopLog, rootLoop, bind, Except.bind, Bool.false_eq_true, if_false]
    cases rootStep method g s.z s.Jinv s.geval s.alpha with
    | error e => rfl
    | ok r =>
      obtain ⟨z, dz, geval, J⟩ := r
      simp only
      cases searchAlpha search g geval dz z s.alpha fuel with
      | none => rfl
      | some alpha =>
        simp only
        generalize termCheck cfg.fTol cfg.fRtol cfg.xTol cfg.xRtol s.f0Norm geval z dz = tc
        obtain ⟨f0, stop⟩ := tc
        cases stop with
        | true => rfl
        | false => exact ih _ log

theorem rootFindLog_names {method search : String} {p : RootMethod} {q : SearchMethod} (hp : (method, p) ∈ rootSolverDict)
    (hq : (search, q) ∈ searchMethods) (cfg : RootCfg) (verbose : Bool) (g : Batch β ι → Batch β ο) (J0 : BatchMat β ι ο)
    (z : Batch β ι) (alpha : ℝ) (fuel : ℕ) :
    rootFindLog cfg method search verbose g J0 z alpha fuel = rootLoopLog cfg p q verbose g fuel (cfg.maxiters + 1)
      ⟨0, z, fun _ _ => 0, g z, J0, alpha, none, false⟩ rootLogInit := by
  have h1 : rootSolverDict.find? (fun r => r.1 == method) = some (method, p) := by
    simp only [rootSolverDict, List.mem_cons, Prod.mk.injEq, List.not_mem_nil, or_false] at hp
    rcases hp with ⟨rfl, rfl⟩ | ⟨rfl, rfl⟩ | ⟨rfl, rfl⟩ | ⟨rfl, rfl⟩ <;> decide
  have h2 : searchMethods.find? (fun r => r.1 == search) = some (search, q) := by
    simp only [searchMethods, List.mem_cons, Prod.mk.injEq, List.not_mem_nil, or_false] at hq
    rcases hq with ⟨rfl, rfl⟩ | ⟨rfl, rfl⟩ | ⟨rfl, rfl⟩ <;> decide
  simp only [rootFindLog, h1, h2]

/-- A loop that ends without `termination_condition` ends outside the tolerances. -/
theorem rootLoop_unfinished {cfg : RootCfg} {method : RootMethod} {search : SearchMethod} {g : Batch β ι → Batch β ο} {fuel : ℕ}
    (hm : IsBroyden method) (hf : 7 ≤ fuel) (F : β → ℝ) (left : ℕ) :
    ∀ s s' : RootState β ι ο, s.f0Norm = some F → (s.terminated = false → ¬ WithinTolerances cfg g F s.z s.dz) →
    rootLoop cfg method search g fuel left s = .ok (some s') → s'.terminated = false → ¬ WithinTolerances cfg g F s'.z s'.dz := by
  induction left with
  | zero =>
    intro s s' _ h h1 h2
    cases h1
    exact h h2
  | succ left ih =>
    intro s s' hF _ h1 h2
    obtain ⟨s1, _, _, _, _, _, _, e7, e8, e9⟩ := rootLoop_succ (cfg := cfg) (search := search) (g := g) hm hf left s
    rw [hF, Option.getD_some] at e7 e8
    rw [e9] at h1
    by_cases hs : s1.terminated = true
    · rw [if_pos hs] at h1
      cases h1
      rw [hs] at h2
      cases h2
    · rw [if_neg hs] at h1
      exact ih s1 s' e7 (fun h hw => hs (e8.2 hw)) h1 h2

/-- **C144.** `root_find` with either Broyden method and any line search returns a point `z` and a logger. With `verbose` the logger
describes the returned point: its entries `z`, `geval` and `dz` are the point, its residual and the last direction, `iteration` the
number of iterations; the entry `termination_condition` is there exactly when the last iteration met the tolerances (with respect to
the residual norms after the first iteration), and otherwise all `maxiters + 1` iterations were spent. Nothing else is recorded:
`alpha` and `phi` stay empty lists. Without `verbose` the point is the same and the logger has only empty lists. -/
theorem C144_logger {method search : String} {p : RootMethod} {q : SearchMethod} (hp : (method, p) ∈ rootSolverDict)
    (hq : (search, q) ∈ searchMethods) (hm : IsBroyden p) (cfg : RootCfg) (g : Batch β ι → Batch β ο) (J0 : BatchMat β ι ο)
    (z : Batch β ι) (alpha : ℝ) (fuel : ℕ) (hf : 7 ≤ fuel) :
    ∃ z' dz n log quiet, rootFindLog cfg method search true g J0 z alpha fuel = .ok (some (z', log)) ∧
      logGet "z" log = some (.point z') ∧ logGet "geval" log = some (.residual (g z')) ∧
      logGet "dz" log = some (.point dz) ∧ logGet "iteration" log = some (.int n) ∧ 1 ≤ n ∧ n ≤ cfg.maxiters + 1 ∧
      logGet "alpha" log = some .emptyList ∧ logGet "phi" log = some .emptyList ∧
      (logGet "termination_condition" log = some (.text "total condition") ∧ WithinTolerances cfg g
          (fun b => Real.sqrt (∑ o, g (fun b i => z b i - alpha * ∑ o, g z b o * J0 b i o) b o ^ 2)) z' dz ∨
        logGet "termination_condition" log = none ∧ n = cfg.maxiters + 1 ∧ ¬ WithinTolerances cfg g
          (fun b => Real.sqrt (∑ o, g (fun b i => z b i - alpha * ∑ o, g z b o * J0 b i o) b o ^ 2)) z' dz) ∧
      rootFindLog cfg method search false g J0 z alpha fuel = .ok (some (z', quiet)) ∧
      ∀ e ∈ quiet, e.2 = .emptyList := by
  obtain ⟨s, h1, h2, h3, h4, h5, h6⟩ := C47_certified hp hq hm cfg g J0 z alpha fuel hf
  rw [rootFind_names hp hq] at h1
  refine ⟨s.z, s.dz, s.iteration, logOf s, rootLogInit, ?_, ?_, ?_, ?_, ?_, h3, h4, ?_, ?_, ?_, ?_, ?_⟩
  · rw [rootFindLog_names hp hq, rootLoopLog_eq _ _ rootLogInit rfl ⟨_, _, _, _, rfl⟩ (fun h => absurd h (Nat.succ_ne_zero _)), h1]
    rfl
  · simp [logOf, logGet]
  · simp [logOf, logGet, h2]
  · simp [logOf, logGet]
  · simp [logOf, logGet]
  · simp [logOf, logGet]
  · simp [logOf, logGet]
  · cases ht : s.terminated with
    | true => exact Or.inl ⟨by simp [logOf, logGet, ht], h6 ht⟩
    | false =>
      refine Or.inr ⟨by simp [logOf, logGet, ht], h5 ht, ?_⟩
      obtain ⟨s1, _, e2, e3, _, _, _, e7, e8, e9⟩ := rootLoop_succ (cfg := cfg) (search := q) (g := g) hm hf cfg.maxiters
        ⟨0, z, fun _ _ => 0, g z, J0, alpha, none, false⟩
      have hz : s1.z = fun b i => z b i - alpha * ∑ o, g z b o * J0 b i o := by
        rw [e3, e2]
      simp only [Option.getD_none] at e7 e8
      have hF : rowNorm (g s1.z) = fun b =>
          Real.sqrt (∑ o, g (fun b i => z b i - alpha * ∑ o, g z b o * J0 b i o) b o ^ 2) := by
        rw [hz]
        rfl
      rw [hF] at e7 e8
      rw [e9] at h1
      by_cases hs : s1.terminated = true
      · rw [if_pos hs] at h1
        cases h1
        rw [hs] at ht
        cases ht
      · rw [if_neg hs] at h1
        exact rootLoop_unfinished hm hf _ cfg.maxiters s1 s e7 (fun _ hw => hs (e8.2 hw)) h1 ht
  · rw [rootFindLog_names hp hq, rootLoopLog_quiet, h1]
    rfl
  · simp [rootLogInit]

/-- The hypotheses of `C144_logger` are met, and the tolerances need not be met: on `g z = z - 1` from 0 with
`J0 = 1`, `alpha = 1` and a negative tolerance all iterations are spent. -/
example (search : String) (q : SearchMethod) (hq : (search, q) ∈ searchMethods) :
    ∃ z' log, rootFindLog (β := Unit) (ι := Unit) (ο := Unit) ⟨-1, 1, 1, 1, 5⟩ "broyden" search true (fun z b i => z b i - 1)
      (fun _ _ _ => 1) (fun _ _ => 0) 1 7 = .ok (some (z', log)) ∧ logGet "termination_condition" log = none ∧
      logGet "iteration" log = some (.int 6) := by
  obtain ⟨z', dz, n, log, _, h1, -, -, -, h5, -, -, -, -, h10, -⟩ := C144_logger (β := Unit) (ι := Unit) (ο := Unit)
    (method := "broyden") (p := .broyden) (by simp [rootSolverDict]) hq (by simp [IsBroyden]) ⟨-1, 1, 1, 1, 5⟩
    (fun z b i => z b i - 1) (fun _ _ _ => 1) (fun _ _ => 0) 1 7 le_rfl
  refine ⟨z', log, h1, ?_⟩
  rcases h10 with ⟨-, hw⟩ | ⟨h, hn, -⟩
  · exfalso
    have h0 := (hw ()).1
    have := Real.sqrt_nonneg (∑ o : Unit, (z' () o - 1) ^ 2)
    simp only at h0
    linarith
  · exact ⟨h, by rw [h5, hn]⟩

/-- torchcde's check of its arguments: a path has at least two dimensions (time and channels) and the times exactly one. -/
def Validates {T S : Type} (lib : SplineLib T S) : Prop :=
  (∀ x t, lib.ndim x < 2 ∨ lib.ndim t ≠ 1 → lib.hermite x t = .error .valueError) ∧
  ∀ x, lib.ndim x = 3 → lib.ndim (lib.permute x) = 3

/-- **C145 (refutation).** `dense_output` passes the times as the path and the path as the times, so that it raises for *every*
solution, all times and all evaluation points: `ValueError` from torchcde when the solution has the three dimensions that
`permute(1, 0, 2)` asks for, `RuntimeError` from `permute` otherwise. -/
theorem C145_raises_refuted {T S : Type} (lib : SplineLib T S) (hlib : Validates lib) (sol tSol : T) (tEval : List T)
    (returnSpline : Bool) :
    denseOutput lib sol tSol tEval returnSpline = .error (if lib.ndim sol = 3 then .valueError else .runtimeError) := by
  by_cases h : lib.ndim sol = 3
  · have := hlib.1 (lib.toLike tSol sol) (lib.permute sol) (Or.inr (by rw [hlib.2 sol h]; norm_num))
    simp [denseOutput, h, bind, Except.bind, pure, Except.pure, this]
  · simp [denseOutput, h, bind, Except.bind, throw, throwThe, MonadExceptOf.throw]

/-- A library whose tensors are their shapes. -/
def shapeLib : SplineLib (List ℕ) Unit where
  ndim := List.length
  toLike x _ := x
  permute x := match x with
    | [a, b, c] => [b, a, c]
    | x => x
  hermite x t := if x.length < 2 ∨ t.length ≠ 1 then .error .valueError else .ok (x.dropLast ++ [4 * x.getLastD 0])
  cubicSpline _ _ := .ok ()
  evaluate _ _ := .ok []
  stack l := .ok [l.length]

/-- The hypothesis of `C145_raises_refuted` is met by a library that accepts a path and its times in their proper places. -/
example : Validates shapeLib ∧ (shapeLib.hermite (shapeLib.permute [5, 2, 3]) [5]).isOk ∧
    denseOutput shapeLib [5, 2, 3] [5] [[], []] false = .error .valueError := by
  have hv : Validates shapeLib := by
    refine ⟨fun x t h => if_pos h, fun x hx => ?_⟩
    obtain ⟨a, b, c, rfl⟩ := List.length_eq_three.1 hx
    rfl
  exact ⟨hv, rfl, C145_raises_refuted shapeLib hv _ _ _ _⟩

end Torchdyn
