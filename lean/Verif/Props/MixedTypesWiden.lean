import Verif.Props.MixedTypes

/-!
Property C140, fields with wider values: the fixed-step solvers return states of the wider type.
-/

set_option linter.unusedSectionVars false

namespace Torchdyn

open Spec

section widen

variable {K V : Type} [Field K] [AddCommGroup V] [Module K V]

theorem join_widest (a : Tag) : a.join ⟨.float64, true⟩ = ⟨.float64, true⟩ := by
  obtain ⟨_ | _, _ | _⟩ := a <;> rfl

theorem widest_join (a : Tag) : Tag.join ⟨.float64, true⟩ a = ⟨.float64, true⟩ := by
  obtain ⟨_ | _, _ | _⟩ := a <;> rfl

/-- One step with a field of values of type `float64`, from a state of any type. -/
theorem taggedStep_widens (method : FixedMethod) (d dT : Dtype) (f : Tagged K → Tagged V → Except PyErr (Tagged V)) (g : K → V → V)
    (hf : ∀ t y, f t y = .ok ⟨g t.val y.val, ⟨.float64, true⟩⟩) (φ : V → K → K → V)
    (hφ : SteppedBy (method.solver V Unit) g () φ) (x : Tagged V) (t dt : K) :
    method.taggedStep d f x (entry dT t) (entry dT dt) = .ok (.three none ⟨φ x.val t dt, ⟨.float64, true⟩⟩ none) := by
  have h1 : ∀ (c : Tagged K) (v : V), c * (⟨v, ⟨.float64, true⟩⟩ : Tagged V) = ⟨c.val • v, ⟨.float64, true⟩⟩ := by
    intro c v
    show Tagged.mk _ _ = _
    rw [join_widest]
  have h2 : ∀ (y : Tagged V) (w : V), y + ⟨w, ⟨.float64, true⟩⟩ = ⟨y.val + w, ⟨.float64, true⟩⟩ := by
    intro y w
    show Tagged.mk _ _ = _
    rw [join_widest]
  obtain ⟨k, e, hs⟩ := hφ x.val t dt
  cases method with
  | euler =>
    simp only [FixedMethod.solver, eulerSolver, eulerStep, firstStage, pureField, bind, Except.bind, pure, Except.pure,
      Except.ok.injEq, StepOut.three.injEq] at hs
    simp only [FixedMethod.taggedStep, eulerTagged, bind, Except.bind, pure, Except.pure, hf, h1, h2, entry_val, ← hs.2.1]
  | midpoint =>
    simp only [FixedMethod.solver, midpointSolver, midpointStep, firstStage, pureField, bind, Except.bind, pure, Except.pure,
      Except.ok.injEq, StepOut.three.injEq] at hs
    simp only [FixedMethod.taggedStep, midpointTagged, bind, Except.bind, pure, Except.pure, hf, h1, h2, entry_val, half_val, add_val,
      ← hs.2.1]
  | rk4 =>
    simp only [FixedMethod.solver, rk4Solver, rk4Step, firstStage, pureField, bind, Except.bind, pure, Except.pure,
      Except.ok.injEq, StepOut.three.injEq] at hs
    simp only [FixedMethod.taggedStep, rk4Tagged, bind, Except.bind, pure, Except.pure, hf, h1, h2, entry_val, add_val, mul_val,
      smul_eq_mul, ← hs.2.1]

theorem gridStates_widens (φ : V → K → K → V) : ∀ (ts : List K) (x : Tagged V),
    ∃ zs : List V, gridStates (fun (x : Tagged V) t dt => (⟨φ x.val t dt, ⟨.float64, true⟩⟩ : Tagged V)) x ts =
      (if ts = [] then [] else x :: zs.map fun v => ⟨v, ⟨.float64, true⟩⟩) ∧
      gridStates φ x.val ts = (if ts = [] then [] else x.val :: zs) := by
  intro ts
  induction ts with
  | nil => intro x; exact ⟨[], rfl, rfl⟩
  | cons t ts ih =>
    intro x
    cases ts with
    | nil => exact ⟨[], rfl, rfl⟩
    | cons t' ts =>
      obtain ⟨zs, h1, h2⟩ := ih ⟨φ x.val t (t' - t), ⟨.float64, true⟩⟩
      refine ⟨φ x.val t (t' - t) :: zs, ?_, ?_⟩
      · rw [gridStates, h1]
        simp
      · rw [gridStates, h2]
        simp

theorem stackTagged_widens (x : Tagged V) (hx : x.tag.dim = true) (z : V) (zs : List V) :
    stackTagged (x :: (z :: zs).map fun v => (⟨v, ⟨.float64, true⟩⟩ : Tagged V)) =
      .ok ((x.val :: z :: zs).map fun v => ⟨v, ⟨.float64, true⟩⟩) := by
  have hfold : ∀ (l : List V) (a : Tag), a = ⟨.float64, true⟩ →
      (l.map fun v => (⟨v, ⟨.float64, true⟩⟩ : Tagged V)).foldl (fun a z => a.join z.tag) a = ⟨.float64, true⟩ := by
    intro l
    induction l with
    | nil => intro a ha; exact ha
    | cons v l ih => intro a _; exact ih _ (join_widest a)
  have hall : ((z :: zs).map fun v => (⟨v, ⟨.float64, true⟩⟩ : Tagged V)).all (fun y => y.tag.dim == x.tag.dim) = true := by
    simp [hx]
  simp only [stackTagged]
  rw [if_pos hall]
  have : ((z :: zs).map fun v => (⟨v, ⟨.float64, true⟩⟩ : Tagged V)).foldl (fun a z => a.join z.tag) x.tag = ⟨.float64, true⟩ :=
    hfold zs _ (join_widest _)
  rw [this]
  simp

end widen

/-- **C140**, fields with wider values: a field whose values are of type `float64` whatever the type of the state (it multiplies the
state by a `float64` tensor) is integrated by `euler`, `midpoint` and `rk4` as without types, and all returned states are of type
`float64`, also the initial one, whatever the types of the initial state and the grid. -/
theorem C140_wider {K V : Type} [Field K] [LinearOrder K] [IsStrictOrderedRing K] [AddCommGroup V] [Module K V]
    (method : FixedMethod) (d dT : Dtype) (f : Tagged K → Tagged V → Except PyErr (Tagged V)) (g : K → V → V)
    (hf : ∀ t y, f t y = .ok ⟨g t.val y.val, ⟨.float64, true⟩⟩) (v : V) (t0 t1 : K) (rest : List K) (hdir : t0 ≤ t1)
    (hsep : Separated (t0 :: t1 :: rest)) :
    ∃ sol, odeintFixed (pureField g) v (t0 :: t1 :: rest) (method.solver V Unit) [] () = .ok (t0 :: t1 :: rest, sol) ∧
      sol.length = (t0 :: t1 :: rest).length ∧
      odeintTaggedFixed method f ⟨v, ⟨d, true⟩⟩ dT (t0 :: t1 :: rest) [] =
        .ok (t0 :: t1 :: rest, sol.map fun v => ⟨v, ⟨.float64, true⟩⟩) := by
  obtain ⟨φ, hφ⟩ : ∃ φ, SteppedBy (method.solver V Unit) g () φ := by
    cases method
    · exact ⟨_, euler_steppedBy g ()⟩
    · exact ⟨_, midpoint_steppedBy g ()⟩
    · exact ⟨_, rk4_steppedBy g ()⟩
  have h1 : odeintFixed (pureField g) v (t0 :: t1 :: rest) (method.solver V Unit) [] () =
      .ok (t0 :: t1 :: rest, gridStates φ v (t0 :: t1 :: rest)) := by
    rw [odeintFixed_forward _ _ _ hdir, fixedOdeint_default _ (pure ()) φ hφ.tick v _ (by simp) hsep, tickN_pure]
    rfl
  refine ⟨_, h1, (gridStates_isTrajectory φ v _ (by simp)).length_eq, ?_⟩
  have h2 : fixedOdeint torchIsclose (fun x t dt => method.taggedStep d f x (entry dT t) (entry dT dt))
      (⟨v, ⟨d, true⟩⟩ : Tagged V) (t0 :: t1 :: rest) [] = .ok (t0 :: t1 :: rest,
        gridStates (fun (x : Tagged V) t dt => (⟨φ x.val t dt, ⟨.float64, true⟩⟩ : Tagged V)) ⟨v, ⟨d, true⟩⟩ (t0 :: t1 :: rest)) := by
    rw [fixedOdeint_default _ (pure ()) _ (fun x t dt => ⟨none, none, ?_⟩) _ _ (by simp) hsep, tickN_pure]
    · rfl
    · rw [taggedStep_widens method d dT f g hf φ hφ]
      rfl
  obtain ⟨zs, h3, h4⟩ := gridStates_widens φ (t1 :: rest) (⟨φ v t0 (t1 - t0), ⟨.float64, true⟩⟩ : Tagged V)
  simp only [odeintTaggedFixed, getItem, List.getElem?_cons_zero, List.getElem?_cons_succ, if_neg (not_lt.2 hdir), bind, Except.bind,
    pure, Except.pure]
  rw [h2]
  simp only [gridStates]
  rw [h3, h4]
  simp only [reduceCtorEq, if_false]
  have h5 := stackTagged_widens (⟨v, ⟨d, true⟩⟩ : Tagged V) rfl (φ v t0 (t1 - t0)) zs
  rw [List.map_cons] at h5
  rw [h5]

/-- Non-vacuity: `f(t, x) = c * x` with a `float64` tensor `c = -1`, on a `float32` state and grid. -/
example : (odeintTaggedFixed .euler (fun _ y => .ok ⟨-y.val, ⟨.float64, true⟩⟩) (⟨1, ⟨.float32, true⟩⟩ : Tagged ℚ) .float32
    [(0 : ℚ), 1 / 2, 1] []).map (fun r => (r.1, r.2.map fun y => (y.val, y.tag.dtype, y.tag.dim))) =
    Except.ok ([0, 1 / 2, 1], [(1, .float64, true), (1 / 2, .float64, true), (1 / 4, .float64, true)]) := by decide +kernel

end Torchdyn
