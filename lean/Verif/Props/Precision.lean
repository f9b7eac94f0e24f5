import Verif.Model.Precision
import Verif.Proofs.FloatTime
import Verif.Props.AdaptiveMore
import Verif.Props.FixedStep
import Verif.Props.AdaptiveTermination
import Verif.Props.Symplectic

/-!
C121: the precision of the coefficients of a solver.
-/

set_option linter.unusedSectionVars false
set_option linter.unusedSimpArgs false

namespace Torchdyn

open Spec

/-! ### By name: coefficients in the precision of the state -/

/-- `r` stands for the coefficient `q` in precision `d`: it is a number of that type, up to the two roundings (to the `float` of
python and to `d`) equal to `q`. -/
def StandsFor (d : Dtype) (q r : ℚ) : Prop :=
  IsBinary d.bits r ∧ |r - q| ≤ ((1 / 2) ^ d.bits + (1 / 2) ^ 53 + (1 / 2) ^ d.bits * (1 / 2) ^ 53) * |q|

/-- The exact coefficients of a solver class. -/
def exactTableau : SolverClass → Option (Tableau ℚ)
  | .rungeKutta4 => some (constructRk4 ℚ)
  | .dormandPrince45 => some (constructDopri5 ℚ)
  | .tsitouras45 => some (constructTsit5 ℚ)
  | _ => none

theorem bits_pos (d : Dtype) : 1 ≤ d.bits := by cases d <;> decide

theorem roundTo_idem (d : Dtype) (q : ℚ) : roundTo d.bits (roundTo d.bits q) = roundTo d.bits q :=
  roundTo_self (bits_pos d) (roundTo_isBinary _ _)

theorem standsFor_round (d : Dtype) (q : ℚ) : StandsFor d q (roundTo d.bits (roundTo 53 q)) := by
  refine ⟨roundTo_isBinary _ _, ?_⟩
  have h1 := roundTo_error 53 q
  have h2 := roundTo_error d.bits (roundTo 53 q)
  have h3 : |roundTo 53 q| ≤ (1 + (1 / 2) ^ 53) * |q| := by
    have := abs_sub_abs_le_abs_sub (roundTo 53 q) q
    linarith
  have h4 : |roundTo d.bits (roundTo 53 q) - q| ≤ |roundTo d.bits (roundTo 53 q) - roundTo 53 q| + |roundTo 53 q - q| :=
    abs_sub_le _ _ _
  have h5 : (1 / 2 : ℚ) ^ d.bits * |roundTo 53 q| ≤ (1 / 2) ^ d.bits * ((1 + (1 / 2) ^ 53) * |q|) :=
    mul_le_mul_of_nonneg_left h3 (by positivity)
  linarith

theorem toDtype_tensorOf (d : Dtype) (l : List ℚ) : toDtype d (tensorOf d l) = tensorOf d l := by
  simp [toDtype, tensorOf, roundTo_idem]

theorem toDtype_idem (d : Dtype) (l : List ℚ) : toDtype d (toDtype d l) = toDtype d l := by
  simp [toDtype, roundTo_idem]

theorem toDtype_tensorSub (d : Dtype) (a b : List ℚ) : toDtype d (tensorSub d a b) = tensorSub d a b := by
  unfold toDtype tensorSub
  rw [List.map_zipWith]
  simp only [roundTo_idem]

theorem forall₂_tensorOf (d : Dtype) (l : List ℚ) : List.Forall₂ (StandsFor d) l (tensorOf d l) := by
  induction l with
  | nil => exact .nil
  | cons q l ih => exact .cons (standsFor_round d q) ih

theorem forall₂_rows (d : Dtype) (l : List (List ℚ)) :
    List.Forall₂ (List.Forall₂ (StandsFor d)) l (l.map (tensorOf d)) := by
  induction l with
  | nil => exact .nil
  | cons q l ih => exact .cons (forall₂_tensorOf d q) ih

/-- A new object with a tableau of the type `d` is not changed by synchronising it with a state of type `d`. -/
theorem sync_new (cls : SolverClass) (d : Dtype) (h : cls ≠ .asynchronousLeapfrog) : (cls.new d).sync d = cls.new d := by
  have h0 : toDtype d [0] = [0] := by
    have := roundTo_error d.bits 0
    simp only [abs_zero, mul_zero, sub_zero] at this
    simp [toDtype, abs_nonpos_iff.1 this]
  cases cls
  all_goals simp [SolverClass.new, SolverObject.sync, constructRk4At, constructDopri5At, constructTsit5At, toDtype_tensorOf,
    toDtype_tensorSub, Function.comp_def, h0]
  contradiction

/-- **C121 (names).** With the solver given to `odeint` by a documented name of a class that has coefficients, the nodes, the stage
weights and the weights of the solution are those of the method, rounded to the precision of the state. -/
theorem C121_names (d : Dtype) (cls : SolverClass) (exact : Tableau ℚ) (he : exactTableau cls = some exact) (name : String)
    (hn : name ∈ documentedNames cls) :
    ∃ s tab, odeintObject d (.inl name) = .ok s ∧ s.cls = cls ∧ s.tableau = some tab ∧
      List.Forall₂ (StandsFor d) exact.c tab.c ∧ List.Forall₂ (List.Forall₂ (StandsFor d)) exact.a tab.a ∧
      List.Forall₂ (StandsFor d) exact.bsol tab.bsol := by
  have hs : strToSolver name = .ok cls := ((C68_names name).1 cls).2 hn
  have hne : cls ≠ .asynchronousLeapfrog := by rintro rfl; cases he
  have ho : odeintObject d (.inl name) = .ok (cls.new d) := by
    simp [odeintObject, strToObject, hs, Except.map, sync_new cls d hne]
  rw [ho]
  cases cls <;> cases he
  · exact ⟨_, _, rfl, rfl, rfl, forall₂_tensorOf d _, forall₂_rows d _, forall₂_tensorOf d _⟩
  · exact ⟨_, _, rfl, rfl, rfl, forall₂_tensorOf d _, forall₂_rows d _, forall₂_tensorOf d _⟩
  · exact ⟨_, _, rfl, rfl, rfl, forall₂_tensorOf d _, forall₂_rows d _, forall₂_tensorOf d _⟩

/-- **C121 (error weights).** The weights of the error estimate, a difference of two rows of rounded coefficients, are within two
units in the last place of one of the differences of the exact ones. -/
theorem C121_error_weights (d : Dtype) (cls : SolverClass) (exact : Tableau ℚ) (he : exactTableau cls = some exact)
    (hcls : cls = .dormandPrince45 ∨ cls = .tsitouras45) :
    ∃ tab, (cls.new d).tableau = some tab ∧
      List.Forall₂ (fun q r => IsBinary d.bits r ∧ |r - q| ≤ 2 * (1 / 2) ^ d.bits) exact.berr tab.berr := by
  have key : ∀ l l' : List ℚ, (∃ a b, l' = tensorSub d a b) →
      List.Forall₂ (fun q r => |r - q| ≤ 2 * (1 / 2 : ℚ) ^ d.bits) l l' →
      List.Forall₂ (fun q r => IsBinary d.bits r ∧ |r - q| ≤ 2 * (1 / 2 : ℚ) ^ d.bits) l l' := by
    rintro l l' ⟨a, b, rfl⟩ h
    rw [List.forall₂_iff_get] at h ⊢
    refine ⟨h.1, fun i h1 h2 => ⟨?_, h.2 i h1 h2⟩⟩
    simp only [tensorSub, List.get_eq_getElem, List.getElem_zipWith]
    exact roundTo_isBinary _ _
  rcases hcls with rfl | rfl <;> cases he
  · refine ⟨_, rfl, key _ _ ⟨_, _, rfl⟩ ?_⟩
    cases d <;> decide +kernel
  · refine ⟨_, rfl, key _ _ ⟨_, _, rfl⟩ ?_⟩
    cases d <;> decide +kernel

/-- **C121 (objects of the right type).** A solver object constructed for the type of the state is used as it is, and is the object
that the name gives. -/
theorem C121_objects (d : Dtype) (cls : SolverClass) (hcls : cls ≠ .asynchronousLeapfrog) (name : String)
    (hn : name ∈ documentedNames cls) :
    odeintObject d (.inr (cls.new d)) = .ok (cls.new d) ∧ odeintObject d (.inl name) = .ok (cls.new d) := by
  have hs : strToSolver name = .ok cls := ((C68_names name).1 cls).2 hn
  simp [odeintObject, strToObject, hs, Except.map, sync_new cls d hcls]

/-- The solver object after calls of `odeint` with states of the types `ds`. -/
def afterCalls (s : SolverObject) (ds : List Dtype) : SolverObject := ds.foldl (fun s d => s.sync d) s

/-- **C121 (repeated use).** Calls with states of one type do not change what a solver object does for that type. -/
theorem C121_reuse (s : SolverObject) (d : Dtype) (n : ℕ) :
    odeintObject d (.inr (afterCalls s (List.replicate n d))) = odeintObject d (.inr s) := by
  have hidem : ∀ s : SolverObject, (s.sync d).sync d = s.sync d := by
    intro s
    cases s with
    | mk cls tab => cases tab <;> simp [SolverObject.sync, toDtype_idem, Function.comp_def]
  show Except.ok ((afterCalls s (List.replicate n d)).sync d) = Except.ok (s.sync d)
  congr 1
  unfold afterCalls
  induction n generalizing s with
  | zero => rfl
  | succ n ih => rw [List.replicate_succ, List.foldl_cons, ih, hidem]

/-! ### Through a problem, or as an object with the default type: the coefficients stay those of `float32` -/

theorem isBinary_mono {p q : ℕ} (h : p ≤ q) {x : ℚ} (hx : IsBinary p x) : IsBinary q x := by
  obtain ⟨m, e, hm, rfl⟩ := hx
  exact ⟨m, e, hm.trans (pow_le_pow_right₀ (by norm_num) h), rfl⟩

theorem round_wider (d : Dtype) {x : ℚ} (hx : IsBinary 24 x) : roundTo d.bits x = x :=
  roundTo_self (bits_pos d) (isBinary_mono (by cases d <;> decide) hx)

theorem toDtype_float32 (d : Dtype) (l : List ℚ) : toDtype d (tensorOf .float32 l) = tensorOf .float32 l := by
  unfold toDtype tensorOf
  rw [List.map_map]
  exact List.map_congr_left fun q _ => round_wider d (roundTo_isBinary 24 _)

theorem toDtype_sub_float32 (d : Dtype) (a b : List ℚ) : toDtype d (tensorSub .float32 a b) = tensorSub .float32 a b := by
  unfold toDtype tensorSub
  rw [List.map_zipWith]
  congr 1
  funext u v
  exact round_wider d (roundTo_isBinary 24 _)

/-- Converting an object built for `float32` changes nothing, whatever the type of the state. -/
theorem sync_float32 (cls : SolverClass) (d : Dtype) : (cls.new .float32).sync d = cls.new .float32 := by
  have h0 : toDtype d [0] = [0] := by
    have := roundTo_error d.bits 0
    simp only [abs_zero, mul_zero, sub_zero] at this
    simp [toDtype, abs_nonpos_iff.1 this]
  cases cls
  all_goals simp [SolverClass.new, SolverObject.sync, constructRk4At, constructDopri5At, constructTsit5At, toDtype_float32,
    toDtype_sub_float32, Function.comp_def, h0]

/-- The object with which the solution of a problem built with the name of a solver (`ODEProblem`, `NeuralODE`) is computed for a
state of type `d`. -/
def problemRun (d : Dtype) (name : String) : Except PyErr SolverObject :=
  (problemObject (.inl name)).bind fun s => odeintObject d (.inr s)

/-- **C121 (problems), what holds.** Through a problem, and for the methods of multiple shooting, the coefficients are those of
the method rounded to `float32`, whatever the type of the state; for `float32` states the object is the one `odeint` uses by name,
and for the classes without coefficients always. -/
theorem C121_problem_partial (d : Dtype) (cls : SolverClass) (hcls : cls ≠ .asynchronousLeapfrog) (name : String)
    (hn : name ∈ documentedNames cls) :
    ∃ s, problemRun d name = .ok s ∧ shootingObject d name = .ok s ∧ s.cls = cls ∧
      (∀ exact, exactTableau cls = some exact → ∃ tab, s.tableau = some tab ∧
        List.Forall₂ (StandsFor .float32) exact.c tab.c ∧ List.Forall₂ (List.Forall₂ (StandsFor .float32)) exact.a tab.a ∧
        List.Forall₂ (StandsFor .float32) exact.bsol tab.bsol) ∧
      ((d = .float32 ∨ exactTableau cls = none) → odeintObject d (.inl name) = .ok s) := by
  have hs : strToSolver name = .ok cls := ((C68_names name).1 cls).2 hn
  refine ⟨cls.new .float32, ?_, ?_, ?_, ?_, ?_⟩
  · simp [problemRun, problemObject, odeintObject, strToObject, hs, Except.map, Except.bind, sync_float32]
  · simp [shootingObject, strToObject, hs, Except.map, sync_float32]
  · cases cls <;> rfl
  · intro exact he
    cases cls <;> cases he
    all_goals exact ⟨_, rfl, forall₂_tensorOf _ _, forall₂_rows _ _, forall₂_tensorOf _ _⟩
  · rintro (rfl | h)
    · exact (C121_objects .float32 cls hcls name hn).2
    · rw [(C121_objects d cls hcls name hn).2]
      cases cls <;> first | rfl | cases h

/-- **C121 is false of the code through a problem**: with a `float64` state the coefficients are not those `odeint` uses by name,
for any of the three classes with coefficients; they are not in the precision of the state. -/
theorem C121_problem_refuted (cls : SolverClass) (exact : Tableau ℚ) (he : exactTableau cls = some exact) (name : String)
    (hn : name ∈ documentedNames cls) :
    ∃ s tab, problemRun .float64 name = .ok s ∧ s.tableau = some tab ∧ odeintObject .float64 (.inl name) ≠ .ok s ∧
      ¬ List.Forall₂ (StandsFor .float64) exact.bsol tab.bsol := by
  have hs : strToSolver name = .ok cls := ((C68_names name).1 cls).2 hn
  have hne : cls ≠ .asynchronousLeapfrog := by rintro rfl; cases he
  have hp : problemRun .float64 name = .ok (cls.new .float32) := by
    simp [problemRun, problemObject, odeintObject, strToObject, hs, Except.map, Except.bind, sync_float32]
  obtain ⟨s', tab', h1, -, h2, -, -, h3⟩ := C121_names .float64 cls exact he name hn
  have key : ∃ tab, (cls.new .float32).tableau = some tab ∧ ¬ List.Forall₂ (StandsFor .float64) exact.bsol tab.bsol := by
    have hfail : ∀ (l r : List ℚ), (¬ |r.headD 0 - l.headD 0| ≤ ((1 / 2) ^ 53 + (1 / 2) ^ 53 + (1 / 2) ^ 53 * (1 / 2) ^ 53) * |l.headD 0|) →
        ¬ List.Forall₂ (StandsFor .float64) l r := by
      intro l r h hf
      cases hf with
      | nil => exact h (by norm_num)
      | cons hq _ => exact h hq.2
    cases cls <;> cases he
    · exact ⟨_, rfl, hfail _ _ (by decide +kernel)⟩
    · exact ⟨_, rfl, hfail _ _ (by decide +kernel)⟩
    · exact ⟨_, rfl, hfail _ _ (by decide +kernel)⟩
  obtain ⟨tab, ht, hk⟩ := key
  refine ⟨_, tab, hp, ht, ?_, hk⟩
  intro h
  rw [h1] at h
  injection h with h
  rw [h, ht] at h2
  injection h2 with h2
  exact hk (h2 ▸ h3)

/-- **C121 (reuse) is false of the code**: one call with a `float32` state degrades a solver object built for `float64` for good,
for each of the classes with coefficients. -/
theorem C121_reuse_refuted (cls : SolverClass) (exact : Tableau ℚ) (he : exactTableau cls = some exact) :
    odeintObject .float64 (.inr (afterCalls (cls.new .float64) [.float32])) ≠ odeintObject .float64 (.inr (cls.new .float64)) := by
  have key : ((((cls.new .float64).sync .float32).sync .float64).tableau.map (·.bsol)) ≠
      (((cls.new .float64).sync .float64).tableau.map (·.bsol)) := by
    cases cls <;> cases he
    all_goals
      intro h
      injection h with h
      revert h
      decide +kernel
  intro h
  injection h with h
  exact key (by rw [← h]; rfl)

/-! ### What the coefficients do to a solution -/

theorem nth_cast (l : List ℚ) (i : ℕ) : nth (l.map (Rat.cast (K := ℝ))) i = ((nth l i : ℚ) : ℝ) := by
  simp only [nth, List.getD_eq_getElem?_getD, List.getElem?_map]
  cases l[i]? <;> simp

theorem nth2_cast (l : List (List ℚ)) (i j : ℕ) :
    nth2 (l.map (·.map (Rat.cast (K := ℝ)))) i j = ((nth2 l i j : ℚ) : ℝ) := by
  simp only [nth2, List.getD_eq_getElem?_getD, List.getElem?_map]
  cases l[i]? with
  | none => simp [nth]
  | some r => exact nth_cast r j

section runs

variable {V A : Type} [AddCommGroup V] [Module ℝ V]

/-- **C121 (rk4).** With the coefficients of `float32`, the increment of every step of `rk4`, on every field, is that of the method
times `1 + 2⁻²⁵`. -/
theorem C121_rk4_scaled (ieuler alf : Solver (Except PyErr) ℝ V A) (s : SolverObject) (d : Dtype) (name : String)
    (hn : name ∈ documentedNames .rungeKutta4) (hs : problemRun d name = .ok s) (f : ℝ → V → V) (args : A) :
    SteppedBy (s.toSolver ieuler alf) f args
      (fun x t dt => x + (1 + (1 / 2) ^ 25 : ℝ) • (rk4Update f x t dt - x)) := by
  have hp : problemRun d name = .ok (SolverClass.new .rungeKutta4 .float32) := by
    have hs : strToSolver name = .ok .rungeKutta4 := ((C68_names name).1 _).2 hn
    simp [problemRun, problemObject, odeintObject, strToObject, hs, Except.map, Except.bind, sync_float32]
  rw [hp] at hs
  injection hs with hs
  subst hs
  intro x t dt
  refine ⟨none, none, ?_⟩
  have c0 : nth (constructRk4At .float32).c 0 = 0 := by decide +kernel
  have c1 : nth (constructRk4At .float32).c 1 = 1 / 2 := by decide +kernel
  have c2 : nth (constructRk4At .float32).c 2 = 1 / 2 := by decide +kernel
  have a0 : nth2 (constructRk4At .float32).a 0 0 = 1 / 2 := by decide +kernel
  have a1 : nth2 (constructRk4At .float32).a 1 0 = 0 := by decide +kernel
  have a2 : nth2 (constructRk4At .float32).a 1 1 = 1 / 2 := by decide +kernel
  have a3 : nth2 (constructRk4At .float32).a 2 0 = 0 := by decide +kernel
  have a4 : nth2 (constructRk4At .float32).a 2 1 = 0 := by decide +kernel
  have a5 : nth2 (constructRk4At .float32).a 2 2 = 1 := by decide +kernel
  have b0 : nth (constructRk4At .float32).bsol 0 = (1 + (1 / 2) ^ 25) / 6 := by decide +kernel
  have b1 : nth (constructRk4At .float32).bsol 1 = (1 + (1 / 2) ^ 25) / 3 := by decide +kernel
  have b2 : nth (constructRk4At .float32).bsol 2 = (1 + (1 / 2) ^ 25) / 3 := by decide +kernel
  have b3 : nth (constructRk4At .float32).bsol 3 = (1 + (1 / 2) ^ 25) / 6 := by decide +kernel
  simp only [SolverObject.toSolver, SolverClass.new, rk4Solver, rk4Step, rk4Update, Tableau.cast, nth_cast, nth2_cast, c0, c1, c2,
    a0, a1, a2, a3, a4, a5, b0, b1, b2, b3, firstStage, pureField, bind, Except.bind, pure, Except.pure, StepOut.newState]
  simp only [constructRk4, nth, nth2, List.getD_cons_zero, List.getD_cons_succ]
  push_cast
  congr 2
  module

/-- The states of a run on the constant field `c` lie on the line with the velocity `r • c` instead of `c`. -/
def DriftsAt (r : ℝ) (c x : V) (t0 : ℝ) (ts : List ℝ) (sol : List V) : Prop :=
  sol.length = ts.length ∧ ∀ (i : ℕ) (t : ℝ), ts[i]? = some t → sol[i]? = some (x + (r * (t - t0)) • c)

theorem drift_of_trajectory {r : ℝ} {c x : V} {φ : V → ℝ → ℝ → V} (hφ : ∀ x t dt, φ x t dt = x + (r * dt) • c) {t0 : ℝ}
    {ts : List ℝ} {sol : List V} (h0 : ts[0]? = some t0) (h : IsTrajectory φ x ts sol) : DriftsAt r c x t0 ts sol := by
  refine ⟨h.length_eq, ?_⟩
  intro i
  induction i with
  | zero =>
    intro t ht
    rw [h0] at ht
    cases ht
    rw [h.start]
    simp
  | succ i ih =>
    intro t ht
    obtain ⟨t', ht'⟩ : ∃ t', ts[i]? = some t' := by
      have := (List.getElem?_eq_some_iff.1 ht).1
      exact ⟨ts[i], List.getElem?_eq_getElem (by omega)⟩
    rw [h.next i t' t _ ht' ht (ih t' ht'), hφ]
    congr 1
    module

theorem rk4Update_const (c x : V) (t dt : ℝ) : rk4Update (fun _ _ => c) x t dt = x + dt • c := by
  unfold rk4Update
  unfold_step
  module

/-- **C121 is false of the code (rk4, effect)**: through a problem, the solution of `x' = c` by `rk4`, for which the method is exact,
is off by `2⁻²⁵ (t - t0) c` on every grid, also for states in `float64`; no refinement helps. -/
theorem C121_rk4_problem_refuted (ieuler alf : Solver (Except PyErr) ℝ V A) (s : SolverObject) (d : Dtype) (name : String)
    (hn : name ∈ documentedNames .rungeKutta4) (hs : problemRun d name = .ok s) (c x : V) (args : A) (t0 t1 : ℝ)
    (rest : List ℝ) (hdir : t0 ≤ t1) (hsep : Separated (t0 :: t1 :: rest)) :
    ∃ sol, odeintFixed (pureField fun _ _ => c) x (t0 :: t1 :: rest) (s.toSolver ieuler alf) [] args =
        .ok (t0 :: t1 :: rest, sol) ∧ DriftsAt (1 + (1 / 2) ^ 25) c x t0 (t0 :: t1 :: rest) sol := by
  obtain ⟨sol, h1, h2⟩ := C12_trajectory (C121_rk4_scaled ieuler alf s d name hn hs (fun _ _ => c) args) x t0 t1 rest hdir hsep
  refine ⟨sol, h1, drift_of_trajectory (fun x t dt => ?_) rfl h2⟩
  rw [rk4Update_const]
  module

/-- **C121 (rk4, by name)**: with the name given to `odeint` and a `float64` state the factor is `1 - 2⁻⁵⁴`, the rounding of `float64`. -/
theorem C121_rk4_name (ieuler alf : Solver (Except PyErr) ℝ V A) (s : SolverObject) (name : String)
    (hn : name ∈ documentedNames .rungeKutta4) (hs : odeintObject .float64 (.inl name) = .ok s) (c x : V) (args : A) (t0 t1 : ℝ)
    (rest : List ℝ) (hdir : t0 ≤ t1) (hsep : Separated (t0 :: t1 :: rest)) :
    ∃ sol, odeintFixed (pureField fun _ _ => c) x (t0 :: t1 :: rest) (s.toSolver ieuler alf) [] args =
        .ok (t0 :: t1 :: rest, sol) ∧ DriftsAt (1 - (1 / 2) ^ 54) c x t0 (t0 :: t1 :: rest) sol := by
  rw [(C121_objects .float64 .rungeKutta4 (by decide) name hn).2] at hs
  injection hs with hs
  subst hs
  have hstep : SteppedBy ((SolverClass.new .rungeKutta4 .float64).toSolver ieuler alf) (fun _ _ => c) args
      (fun x _ dt => x + ((1 - (1 / 2) ^ 54) * dt) • c) := by
    intro x t dt
    refine ⟨none, none, ?_⟩
    have hb : nth (constructRk4At .float64).bsol 0 + nth (constructRk4At .float64).bsol 1 + nth (constructRk4At .float64).bsol 2 +
      nth (constructRk4At .float64).bsol 3 = 1 - (1 / 2) ^ 54 := by decide +kernel
    have hb' : ((nth (constructRk4At .float64).bsol 0 : ℚ) : ℝ) + (nth (constructRk4At .float64).bsol 1 : ℚ) +
        (nth (constructRk4At .float64).bsol 2 : ℚ) + (nth (constructRk4At .float64).bsol 3 : ℚ) = 1 - (1 / 2) ^ 54 := by
      have := congrArg (Rat.cast (K := ℝ)) hb
      push_cast at this
      exact this
    simp only [SolverObject.toSolver, SolverClass.new, rk4Solver, rk4Step, Tableau.cast, nth_cast, nth2_cast, firstStage, pureField,
      bind, Except.bind, pure, Except.pure]
    rw [← hb']
    congr 2
    module
  obtain ⟨sol, h1, h2⟩ := C12_trajectory hstep x t0 t1 rest hdir hsep
  exact ⟨sol, h1, drift_of_trajectory (fun x t dt => rfl) rfl h2⟩

end runs

section adaptive

variable {ι A : Type} [Fintype ι]

/-- A tableau whose last stage is evaluated at the new point: the condition behind first-same-as-last. -/
def SameAsLast (tab : Tableau ℚ) : Prop :=
  nth tab.c 5 = 1 ∧ ∀ j < 6, nth2 tab.a 5 j = nth tab.bsol j

instance (tab : Tableau ℚ) : Decidable (SameAsLast tab) := by unfold SameAsLast; infer_instance

/-- The sum of the weights of the solution. -/
def weightSum (tab : Tableau ℚ) : ℚ :=
  nth tab.bsol 0 + nth tab.bsol 1 + nth tab.bsol 2 + nth tab.bsol 3 + nth tab.bsol 4 + nth tab.bsol 5

/-- The solver `base` with the coefficients `tab`. -/
noncomputable def withTableau (base : Solver (Except PyErr) ℝ (ι → ℝ) A) (tab : Tableau ℚ) : Solver (Except PyErr) ℝ (ι → ℝ) A :=
  { base with step := rk7Step tab.cast }

theorem rk7_fsalSolver (base : Solver (Except PyErr) ℝ (ι → ℝ) A) (hb : base.adaptive = true) (h1 : 0 < base.safety)
    (h2 : 0 < base.minFactor) (h3 : 0 < base.maxFactor) (tab : Tableau ℚ) (ht : SameAsLast tab) (args : A) :
    FsalSolver (withTableau base tab) args where
  adaptive := hb
  safety_pos := h1
  min_pos := h2
  max_pos := h3
  step_ok f x t dt k1 := by
    obtain ⟨k, x', e, st, h, -⟩ := rk7_four tab.cast f x t dt k1 args
    exact ⟨k, x', e, st, h⟩
  first_stage f x t dt := rfl
  fsal f x t dt k1 k x' e st h := by
    have hc := ht.1
    have a0 := ht.2 0 (by norm_num)
    have a1 := ht.2 1 (by norm_num)
    have a2 := ht.2 2 (by norm_num)
    have a3 := ht.2 3 (by norm_num)
    have a4 := ht.2 4 (by norm_num)
    have a5 := ht.2 5 (by norm_num)
    cases k1 <;>
    · simp only [withTableau, rk7Step, firstStage, pureField, bind, Except.bind, pure, Except.pure, Tableau.cast, nth_cast, nth2_cast, hc, a0, a1, a2, a3,
        a4, a5, Except.ok.injEq, StepOut.four.injEq] at h
      obtain ⟨rfl, rfl, -, -⟩ := h
      congr 1
      · push_cast; ring
      · module

theorem rk7_const_step (tab : Tableau ℚ) (c x : ι → ℝ) (t dt : ℝ) (args : A) (k x' e : ι → ℝ) (st : List (ι → ℝ))
    (h : rk7Step (m := Except PyErr) tab.cast (fun _ _ => .ok c) x t dt none args = .ok (.four k x' e st)) :
    x' = x + ((weightSum tab : ℝ) * dt) • c := by
  simp only [rk7Step, firstStage, bind, Except.bind, pure, Except.pure, Tableau.cast, nth_cast, nth2_cast,
    Except.ok.injEq, StepOut.four.injEq] at h
  obtain ⟨-, rfl, -, -⟩ := h
  unfold weightSum
  push_cast
  module

theorem reached_drift (base : Solver (Except PyErr) ℝ (ι → ℝ) A) (tab : Tableau ℚ) (c : ι → ℝ) (args : A) (sel : Finset ι)
    (atol rtol : ℝ) (p q : Point ι)
    (h : Reached (withTableau base tab) args (fun _ _ => c) sel atol rtol p q) :
    q.2 = p.2 + ((weightSum tab : ℝ) * (q.1 - p.1)) • c := by
  induction h with
  | refl => simp
  | tail _ h ih =>
    obtain ⟨-, k, e, st, hk, -⟩ := h
    rw [rk7_const_step tab c _ _ _ args k _ e st hk, ih]
    module

/-- Every run with the coefficients `tab` on a constant field returns, and its states drift by the sum of the weights. -/
theorem rk7_const_run (base : Solver (Except PyErr) ℝ (ι → ℝ) A) (hb : base.adaptive = true) (hord : 1 ≤ base.order)
    (h1 : base.safety = 9 / 10) (h2 : base.minFactor = 1 / 5) (h3 : base.maxFactor = 10) (tab : Tableau ℚ) (ht : SameAsLast tab)
    (args : A) (c x : ι → ℝ) (t0 t1 : ℝ) (rest : List ℝ) (hinc : Increasing (t0 :: t1 :: rest)) (atol rtol : ℝ) (ha : 0 < atol)
    (hr : 0 ≤ rtol) (rae : Bool) (saveAt : List ℝ) (sel : Finset ι) :
    (∃ fuel ts xs, odeint fuel (pureField fun _ _ => c) x (t0 :: t1 :: rest) (withTableau base tab) atol rtol false
      rae saveAt args sel = .ok (some (ts, xs))) ∧
    ∀ fuel ts xs, odeint fuel (pureField fun _ _ => c) x (t0 :: t1 :: rest) (withTableau base tab) atol rtol false
      rae saveAt args sel = .ok (some (ts, xs)) → DriftsAt (weightSum tab) c x t0 ts xs := by
  have hs := rk7_fsalSolver base hb (by rw [h1]; norm_num) (by rw [h2]; norm_num) (by rw [h3]; norm_num) tab ht args
  constructor
  · exact C27_terminates_general hs _ (fun f M hM x t dt k1 k x' e st hk hdt h i =>
        rk7_errorLinear (args := args) tab.cast f M hM x t dt k1 k x' e st hk hdt h i) hord h1 h2 h3 (fun _ _ => c) (∑ i, |c i|)
        (fun _ _ i => Finset.single_le_sum (f := fun i => |c i|) (fun i _ => abs_nonneg (c i)) (Finset.mem_univ i))
        x t0 t1 rest hinc atol rtol ha hr false rae saveAt sel
  · intro fuel ts xs h
    obtain ⟨a1, a2, a3, a4⟩ := C22_accepted hs (fun _ _ => c) x t0 t1 rest hinc atol rtol false rae (.inl rfl) saveAt sel fuel ts xs h
    refine ⟨a3.symm, ?_⟩
    intro i
    induction i with
    | zero =>
      intro t ht
      rw [a1] at ht
      cases ht
      rw [a2]
      simp
    | succ i ih =>
      intro t ht
      have hlt := (List.getElem?_eq_some_iff.1 ht).1
      have ht' : ts[i]? = some ts[i] := List.getElem?_eq_getElem (by omega)
      have hx : xs[i + 1]? = some xs[i + 1] := List.getElem?_eq_getElem (by omega)
      have := reached_drift base tab c args sel atol rtol _ _ (a4 i _ _ _ _ ht' (ih _ ht') ht hx)
      rw [hx]
      simp only at this
      rw [this]
      congr 1
      module

/-- **C121 is false of the code (adaptive, effect)**: through a problem, `dopri5` returns on `x' = c`, for which the method is exact,
states that are off by `3/2²⁷ (t - t0) c`, and `tsit5` by `7/2²⁹ (t - t0) c`, for every tolerance, every grid and also for
states in `float64`. -/
theorem C121_adaptive_problem_refuted (ieuler alf : Solver (Except PyErr) ℝ (ι → ℝ) A) (cls : SolverClass) (r : ℝ)
    (hcls : (cls = .dormandPrince45 ∧ r = 1 + 3 / 2 ^ 27) ∨ (cls = .tsitouras45 ∧ r = 1 - 7 / 2 ^ 29)) (s : SolverObject)
    (d : Dtype) (name : String) (hn : name ∈ documentedNames cls) (hs : problemRun d name = .ok s) (args : A) (c x : ι → ℝ)
    (t0 t1 : ℝ) (rest : List ℝ) (hinc : Increasing (t0 :: t1 :: rest)) (atol rtol : ℝ) (ha : 0 < atol) (hr : 0 ≤ rtol) (rae : Bool)
    (saveAt : List ℝ) (sel : Finset ι) :
    (∃ fuel ts xs, odeint fuel (pureField fun _ _ => c) x (t0 :: t1 :: rest) (s.toSolver ieuler alf) atol rtol false
      rae saveAt args sel = .ok (some (ts, xs))) ∧
    ∀ fuel ts xs, odeint fuel (pureField fun _ _ => c) x (t0 :: t1 :: rest) (s.toSolver ieuler alf) atol rtol false
      rae saveAt args sel = .ok (some (ts, xs)) → DriftsAt r c x t0 ts xs := by
  have hstr : strToSolver name = .ok cls := ((C68_names name).1 _).2 hn
  have hp : problemRun d name = .ok (cls.new .float32) := by
    simp [problemRun, problemObject, odeintObject, strToObject, hstr, Except.map, Except.bind, sync_float32]
  rw [hp] at hs
  injection hs with hs
  subst hs
  rcases hcls with ⟨rfl, rfl⟩ | ⟨rfl, rfl⟩
  · have hw : weightSum (constructDopri5At .float32) = 1 + 3 / 2 ^ 27 := by decide +kernel
    have hw' : ((weightSum (constructDopri5At .float32) : ℚ) : ℝ) = 1 + 3 / 2 ^ 27 := by rw [hw]; norm_num
    rw [← hw']
    exact rk7_const_run (dopri5Solver (Except PyErr) ℝ (ι → ℝ) A) rfl (by norm_num [dopri5Solver]) rfl rfl rfl
      (constructDopri5At .float32) (by decide +kernel) args c x t0 t1 rest hinc atol rtol ha hr rae saveAt sel
  · have hw : weightSum (constructTsit5At .float32) = 1 - 7 / 2 ^ 29 := by decide +kernel
    have hw' : ((weightSum (constructTsit5At .float32) : ℚ) : ℝ) = 1 - 7 / 2 ^ 29 := by rw [hw]; norm_num
    rw [← hw']
    exact rk7_const_run (tsit5Solver (Except PyErr) ℝ (ι → ℝ) A) rfl (by norm_num [tsit5Solver]) rfl rfl rfl
      (constructTsit5At .float32) (by decide +kernel) args c x t0 t1 rest hinc atol rtol ha hr rae saveAt sel

end adaptive

/-! ### Non-vacuity -/

example : "rk4" ∈ documentedNames .rungeKutta4 ∧ "dopri5" ∈ documentedNames .dormandPrince45 ∧
    "tsit5" ∈ documentedNames .tsitouras45 := by decide

example : Separated ([0, 1] : List ℝ) ∧ Increasing ([0, 1] : List ℝ) :=
  ⟨by simp [Separated, Close, abs_of_pos]; norm_num, by simp [Increasing]⟩

/-- The weight `1/6` of `rk4` in the two types. -/
example : (constructRk4At .float32).bsol.head? = some (11184811 / 2 ^ 26) ∧
    (constructRk4At .float64).bsol.head? = some (6004799503160661 / 2 ^ 55) := by decide +kernel

end Torchdyn
